import Verif.Png.PnmModel
import Mathlib.Tactic.SplitIfs
import Mathlib.Data.List.Basic

/-! # The headers of PGM and PPM files -/

namespace Verif.Png

/-- what is left of the file -/
def Ctx.all (s : Ctx) : List UInt8 := s.buf ++ s.rest

/-- the end of the file has not been passed -/
structure Ctx.Good (s : Ctx) : Prop where
  more : s.more = true
  eof : s.eof = true → s.rest = []

theorem take_cons_of_ne {l : List UInt8} (h : l ≠ []) : ∃ b bs, l.take 128 = b :: bs ∧ l = b :: (bs ++ l.drop 128) := by
  cases l with
  | nil => exact absurd rfl h
  | cons b l => exact ⟨b, l.take 127, rfl, by simp [List.take_append_drop]⟩

theorem refill_good {s : Ctx} (hg : s.Good) (hr : s.rest ≠ []) : s.refill.Good ∧ s.refill.all = s.rest ∧ s.refill.buf ≠ [] := by
  obtain ⟨b, bs, h1, h2⟩ := take_cons_of_ne hr
  have he : s.eof = false := by
    cases h : s.eof with
    | false => rfl
    | true => exact absurd (hg.eof h) hr
  rw [Ctx.refill, h1]
  refine ⟨⟨hg.more, fun h => ?_⟩, h2.symm, by simp⟩
  simp only [he, Bool.false_or, decide_eq_true_eq] at h
  have : s.rest.length < 128 := by
    have := congrArg List.length h1
    rw [List.length_take] at this
    omega
  exact List.drop_eq_nil_of_le (by omega)

theorem start_good {file : List UInt8} (h : file ≠ []) : (Ctx.start file).Good ∧ (Ctx.start file).all = file := by
  have := refill_good (s := ⟨[], file, false, true⟩) ⟨rfl, fun h => (by cases h)⟩ h
  exact ⟨this.1, this.2.1⟩

theorem get_good {s : Ctx} {b : UInt8} {r : List UInt8} (hg : s.Good) (h : s.all = b :: r) :
    s.get.1 = b ∧ s.get.2.all = r ∧ s.get.2.Good := by
  rw [Ctx.get]
  split
  · rename_i b' bs hb
    rw [Ctx.all, hb, List.cons_append, List.cons.injEq] at h
    exact ⟨h.1, h.2, hg.more, hg.eof⟩
  · rename_i hb
    rw [Ctx.all, hb, List.nil_append] at h
    rw [if_pos hg.more]
    obtain ⟨h1, h2, h3⟩ := refill_good hg (by rw [h]; simp)
    rw [h, Ctx.all] at h2
    cases hbuf : s.refill.buf with
    | nil => exact absurd hbuf h3
    | cons x xs =>
      rw [hbuf, List.cons_append, List.cons.injEq] at h2
      exact ⟨h2.1, h2.2, h1.more, h1.eof⟩

theorem atEof_good {s : Ctx} (hg : s.Good) (h : s.all ≠ []) : s.atEof = false := by
  rw [Ctx.atEof, hg.more, if_pos rfl]
  split
  · rename_i he
    rw [Ctx.all, hg.eof he, List.append_nil] at h
    cases hb : s.buf with
    | nil => exact absurd hb h
    | cons => rfl
  · rfl

theorem fill_at (s : Ctx) (n i : Nat) (hi : i < n) : (s.fill n).size = n ∧ (s.fill n).at_ i = s.all[i]? := by
  rw [Ctx.fill, Ctx.all]
  split
  · refine ⟨rfl, ?_⟩
    rename_i h
    simp only [List.getElem?_append]
    split
    · rfl
    · rw [List.getElem?_take_of_lt (by omega)]
  · rename_i h
    refine ⟨rfl, ?_⟩
    simp only
    rw [List.getElem?_take_of_lt hi, List.getElem?_append_left (by omega)]

/-! ## What the format says -/

/-- white space in a header -/
def White (c : UInt8) : Prop := c ∈ ([9, 10, 11, 12, 13, 32] : List UInt8)

/-- a decimal digit -/
def Figure (c : UInt8) : Prop := 48 ≤ c.toNat ∧ c.toNat ≤ 57

/-- white space and comments -/
inductive Blank : List UInt8 → Prop where
  | spaces (l : List UInt8) (h : ∀ c ∈ l, White c) : Blank l
  | comment (l text : List UInt8) (e : UInt8) (rest : List UInt8) (h : ∀ c ∈ l, White c) (ht : ∀ c ∈ text, c ≠ 10 ∧ c ≠ 13)
      (he : e = 10 ∨ e = 13) (hr : Blank rest) : Blank (l ++ 35 :: (text ++ e :: rest))

/-- the number some digits stand for -/
def decimal (ds : List UInt8) : Nat := ds.foldl (fun v c => 10 * v + (c.toNat - 48)) 0

/-- some digits that stand for a number -/
def Numeral (v : Nat) (ds : List UInt8) : Prop := ds ≠ [] ∧ (∀ c ∈ ds, Figure c) ∧ decimal ds = v

/-- a PGM (one channel) or PPM (three) file whose header tells the width, the height and the greatest value, and what follows the header -/
def IsPnm (n w h m : Nat) (data file : List UInt8) : Prop :=
  ∃ (b1 dw b2 dh b3 dm : List UInt8) (sep : UInt8),
    (n = 1 ∨ n = 3) ∧ file = 80 :: (if n = 3 then 54 else 53) :: (b1 ++ (dw ++ (b2 ++ (dh ++ (b3 ++ (dm ++ sep :: data)))))) ∧
    Blank b1 ∧ b1 ≠ [] ∧ Numeral w dw ∧ Blank b2 ∧ b2 ≠ [] ∧ Numeral h dh ∧ Blank b3 ∧ b3 ≠ [] ∧ Numeral m dm ∧ White sep

theorem white_iff (c : UInt8) : pnmSpace c = true ↔ White c := by
  simp only [pnmSpace, White, Bool.or_eq_true, beq_iff_eq, List.mem_cons, List.not_mem_nil, or_false]
  tauto

theorem figure_iff (c : UInt8) : pnmDigit c = true ↔ Figure c := by simp [pnmDigit, Figure]

theorem Blank.cons {c : UInt8} (hc : White c) : ∀ {l : List UInt8}, Blank l → Blank (c :: l)
  | _, .spaces l h => .spaces _ (fun d hd => by rcases List.mem_cons.1 hd with rfl | hd; exacts [hc, h d hd])
  | _, .comment l text e rest h ht he hr =>
    .comment (c :: l) text e rest (fun d hd => by rcases List.mem_cons.1 hd with rfl | hd; exacts [hc, h d hd]) ht he hr

/-- a white space or a comment begins with no digit -/
theorem Blank.head {l : List UInt8} (hl : Blank l) (hne : l ≠ []) : ∃ c r, l = c :: r ∧ ¬ Figure c := by
  have hw : ∀ c, White c → ¬ Figure c := by
    intro c hc hf
    simp only [White, List.mem_cons, List.not_mem_nil, or_false] at hc
    rcases hc with rfl | rfl | rfl | rfl | rfl | rfl <;> revert hf <;> simp [Figure]
  cases hl with
  | spaces l h =>
    cases l with
    | nil => exact absurd rfl hne
    | cons c r => exact ⟨c, r, rfl, hw c (h c (by simp))⟩
  | comment l text e rest h ht he hr =>
    cases l with
    | nil => exact ⟨35, text ++ e :: rest, rfl, by simp [Figure]⟩
    | cons c r => exact ⟨c, _, rfl, hw c (h c (by simp))⟩

/-! ## Reading it -/

theorem skipSpaces_ok : ∀ (l : List UInt8) (k : Nat) (c d : UInt8) (s : Ctx) (r : List UInt8), (∀ b ∈ l, White b) → s.Good →
    c :: s.all = l ++ d :: r → ¬ White d → l.length < k → ∃ s', skipSpaces k c s = .ok (d, s') ∧ s'.all = r ∧ s'.Good
  | [], k + 1, c, d, s, r, _, hg, h, hd, _ => by
    rw [List.nil_append, List.cons.injEq] at h
    obtain ⟨rfl, h⟩ := h
    have : pnmSpace c = false := by
      cases hp : pnmSpace c with
      | false => rfl
      | true => exact absurd ((white_iff c).1 hp) hd
    exact ⟨s, by rw [skipSpaces, this, Bool.and_false, if_neg (by simp)], h, hg⟩
  | b :: l, k + 1, c, d, s, r, hl, hg, h, hd, hk => by
    rw [List.cons_append, List.cons.injEq] at h
    obtain ⟨rfl, h⟩ := h
    have hne : s.all ≠ [] := by rw [h]; simp
    obtain ⟨x, xs, hx⟩ : ∃ x xs, s.all = x :: xs := by
      cases hs : s.all with
      | nil => exact absurd hs hne
      | cons x xs => exact ⟨x, xs, rfl⟩
    obtain ⟨g1, g2, g3⟩ := get_good hg hx
    rw [List.length_cons] at hk
    rw [skipSpaces, atEof_good hg hne, (white_iff c).2 (hl c (by simp)), if_pos (by rfl)]
    exact skipSpaces_ok l k _ d _ r (fun b hb => hl b (by simp [hb])) g3 (by rw [g1, g2, ← hx, h]) hd (by omega)

theorem skipLine_ok : ∀ (l : List UInt8) (k : Nat) (c d : UInt8) (s : Ctx) (r : List UInt8), (∀ b ∈ l, b ≠ 10 ∧ b ≠ 13) → s.Good →
    c :: s.all = l ++ d :: r → d = 10 ∨ d = 13 → l.length < k → ∃ s', skipLine k c s = .ok (d, s') ∧ s'.all = r ∧ s'.Good
  | [], k + 1, c, d, s, r, _, hg, h, hd, _ => by
    rw [List.nil_append, List.cons.injEq] at h
    obtain ⟨rfl, h⟩ := h
    refine ⟨s, ?_, h, hg⟩
    rw [skipLine, if_neg (by rcases hd with rfl | rfl <;> simp)]
  | b :: l, k + 1, c, d, s, r, hl, hg, h, hd, hk => by
    rw [List.cons_append, List.cons.injEq] at h
    obtain ⟨rfl, h⟩ := h
    have hne : s.all ≠ [] := by rw [h]; simp
    obtain ⟨x, xs, hx⟩ : ∃ x xs, s.all = x :: xs := by
      cases hs : s.all with
      | nil => exact absurd hs hne
      | cons x xs => exact ⟨x, xs, rfl⟩
    obtain ⟨g1, g2, g3⟩ := get_good hg hx
    have hc := hl c (by simp)
    rw [List.length_cons] at hk
    rw [skipLine, atEof_good hg hne, if_pos (by simp [hc])]
    exact skipLine_ok l k _ d _ r (fun b hb => hl b (by simp [hb])) g3 (by rw [g1, g2, ← hx, h]) hd (by omega)

theorem skipBlank_ok (rounds : Nat) : ∀ (k : Nat) (l : List UInt8) (c d : UInt8) (s : Ctx) (r : List UInt8), Blank l → s.Good →
    c :: s.all = l ++ d :: r → Figure d → r ≠ [] → l.length < k → l.length < rounds →
    ∃ s', skipBlank rounds k c s = .ok (d, s') ∧ s'.all = r ∧ s'.Good
  | 0, l, c, d, s, r, _, _, _, _, _, hk, _ => by omega
  | k + 1, l, c, d, s, r, hl, hg, h, hd, hr, hk, hround => by
    cases hl with
    | spaces l hw =>
      have hdw : ¬ White d := by
        intro hw
        simp only [White, List.mem_cons, List.not_mem_nil, or_false] at hw
        rcases hw with rfl | rfl | rfl | rfl | rfl | rfl <;> revert hd <;> simp [Figure]
      obtain ⟨s', h1, h2, h3⟩ := skipSpaces_ok l rounds c d s r hw hg h hdw hround
      have h35 : d ≠ 35 := by
        rintro rfl
        revert hd; simp [Figure]
      refine ⟨s', ?_, h2, h3⟩
      rw [skipBlank, h1, Outcome.bind_ok, if_pos (by simp [h35])]
    | comment l text e rest hw ht he hrest =>
      simp only [List.length_append, List.length_cons] at hk hround
      obtain ⟨s1, h1, h2, h3⟩ := skipSpaces_ok l rounds c 35 s (text ++ e :: (rest ++ d :: r)) hw hg (by rw [h]; simp) (by simp [White]) (by omega)
      have hne : s1.all ≠ [] := by rw [h2]; simp
      obtain ⟨s2, g1, g2, g3⟩ := skipLine_ok (35 :: text) rounds 35 e s1 (rest ++ d :: r) (fun b hb => by
        rcases List.mem_cons.1 hb with rfl | hb
        · decide
        · exact ht b hb) h3 (by rw [h2]; simp) he (by simp only [List.length_cons]; omega)
      rw [skipBlank, h1, Outcome.bind_ok, if_neg (by rw [atEof_good h3 hne]; simp), g1, Outcome.bind_ok]
      refine skipBlank_ok rounds k (e :: rest) e d s2 r (Blank.cons (by rcases he with rfl | rfl <;> simp [White]) hrest) g3 (by rw [g2]; simp) hd hr
        (by simp only [List.length_cons]; omega) (by simp only [List.length_cons]; omega)

theorem foldl_mono (ds : List UInt8) (v : Nat) : v ≤ ds.foldl (fun v c => 10 * v + (c.toNat - 48)) v := by
  induction ds generalizing v with
  | nil => exact Nat.le_refl v
  | cons d ds ih => exact Nat.le_trans (show v ≤ 10 * v + (d.toNat - 48) by omega) (ih _)

theorem pnmInteger_ok : ∀ (ds : List UInt8) (k v : Nat) (c d : UInt8) (s : Ctx) (r : List UInt8), (∀ b ∈ ds, Figure b) → s.Good →
    c :: s.all = ds ++ d :: r → ¬ Figure d → ds.length < k → ds.foldl (fun v c => 10 * v + (c.toNat - 48)) v < 2 ^ 31 →
    ∃ s', pnmInteger k v c s = .ok (ds.foldl (fun v c => 10 * v + (c.toNat - 48)) v, d, s') ∧ s'.all = r ∧ s'.Good
  | [], k + 1, v, c, d, s, r, _, hg, h, hd, _, _ => by
    rw [List.nil_append, List.cons.injEq] at h
    obtain ⟨rfl, h⟩ := h
    have : pnmDigit c = false := by
      cases hp : pnmDigit c with
      | false => rfl
      | true => exact absurd ((figure_iff c).1 hp) hd
    exact ⟨s, by rw [pnmInteger, this, Bool.and_false, if_neg (by simp)]; rfl, h, hg⟩
  | b :: l, k + 1, v, c, d, s, r, hl, hg, h, hd, hk, hv => by
    rw [List.cons_append, List.cons.injEq] at h
    obtain ⟨rfl, h⟩ := h
    have hne : s.all ≠ [] := by rw [h]; simp
    obtain ⟨x, xs, hx⟩ : ∃ x xs, s.all = x :: xs := by
      cases hs : s.all with
      | nil => exact absurd hs hne
      | cons x xs => exact ⟨x, xs, rfl⟩
    obtain ⟨g1, g2, g3⟩ := get_good hg hx
    rw [List.length_cons] at hk
    rw [List.foldl_cons] at hv ⊢
    have hm := foldl_mono l (10 * v + (c.toNat - 48))
    rw [pnmInteger, atEof_good hg hne, (figure_iff c).2 (hl c (by simp)), if_pos (by rfl)]
    simp only
    rw [if_neg (by omega), Nat.mul_comm v 10]
    exact pnmInteger_ok l k _ _ d _ r (fun b hb => hl b (by simp [hb])) g3 (by rw [g1, g2, ← hx, h]) hd (by omega) hv

theorem pnmNumber_ok {rounds v : Nat} {l ds : List UInt8} {c d : UInt8} {s : Ctx} {r : List UInt8} (hl : Blank l) (hds : Numeral v ds) (hv : v < 2 ^ 31)
    (hg : s.Good) (h : c :: s.all = l ++ (ds ++ d :: r)) (hd : ¬ Figure d) (hround : l.length + ds.length < rounds) :
    ∃ s', pnmNumber rounds c s = .ok (v, d, s') ∧ s'.all = r ∧ s'.Good := by
  obtain ⟨hne, hfig, hval⟩ := hds
  cases ds with
  | nil => exact absurd rfl hne
  | cons x xs =>
    simp only [List.length_cons] at hround
    obtain ⟨s1, h1, h2, h3⟩ := skipBlank_ok rounds rounds l c x s (xs ++ d :: r) hl hg (by rw [h]; simp) (hfig x (by simp)) (by simp) (by omega) (by omega)
    obtain ⟨s2, g1, g2, g3⟩ := pnmInteger_ok (x :: xs) rounds 0 x d s1 r hfig h3 (by rw [h2]; simp) hd (by simp only [List.length_cons]; omega)
      (by rw [← decimal, hval]; exact hv)
    refine ⟨s2, ?_, g2, g3⟩
    rw [pnmNumber, h1, Outcome.bind_ok, g1, ← decimal, hval]

/-- what is made of a file with a header -/
theorem loadPnm_ok {rounds room n w h m : Nat} {data file : List UInt8} (hf : IsPnm n w h m data file) (hw : w < 2 ^ 31) (hh : h < 2 ^ 31)
    (hm : m ≤ 255) (hround : file.length < rounds) :
    loadPnm rounds room file =
      if 2 ^ 31 ≤ n * w ∨ 2 ^ 31 ≤ n * w * h then .throws "too large"
      else if room < n * w * h then .throws "outofmem"
      else .ok ⟨w, h, n, 8, ⟨n * w * h, fun i => if i < n * w * h then data[i]? else none⟩⟩ := by
  obtain ⟨b1, dw, b2, dh, b3, dm, sep, hn, rfl, hb1, hb1', hdw, hb2, hb2', hdh, hb3, hb3', hdm, hsep⟩ := hf
  simp only [List.length_cons, List.length_append] at hround
  obtain ⟨x1, r1, rfl, hx1⟩ := hb1.head hb1'
  obtain ⟨x2, r2, rfl, hx2⟩ := hb2.head hb2'
  obtain ⟨x3, r3, rfl, hx3⟩ := hb3.head hb3'
  simp only [List.length_cons] at hround
  have hsep' : ¬ Figure sep := by
    intro hfg
    simp only [White, List.mem_cons, List.not_mem_nil, or_false] at hsep
    rcases hsep with rfl | rfl | rfl | rfl | rfl | rfl <;> revert hfg <;> simp [Figure]
  generalize ht : (if n = 3 then 54 else 53 : UInt8) = t
  have htt : ¬ ((80 : UInt8) ≠ 80 ∨ (t ≠ 53 ∧ t ≠ 54)) := by
    subst ht
    rcases hn with rfl | rfl <;> decide
  have htn : (if t = 54 then 3 else 1) = n := by
    subst ht
    rcases hn with rfl | rfl <;> decide
  obtain ⟨hg0, ha0⟩ := start_good (file := 80 :: t :: (x1 :: r1 ++ (dw ++ (x2 :: r2 ++ (dh ++ (x3 :: r3 ++ (dm ++ sep :: data))))))) (by simp)
  obtain ⟨e1, a1, g1⟩ := get_good hg0 ha0
  obtain ⟨e2, a2, g2⟩ := get_good g1 a1
  rw [List.cons_append] at a2
  obtain ⟨e3, a3, g3⟩ := get_good g2 a2
  obtain ⟨s4, h4, a4, g4⟩ := pnmNumber_ok (rounds := rounds) (c := x1) (d := x2) (r := r2 ++ (dh ++ (x3 :: r3 ++ (dm ++ sep :: data)))) hb1 hdw hw g3
    (by rw [a3]; simp) hx2 (by simp only [List.length_cons]; omega)
  obtain ⟨s5, h5, a5, g5⟩ := pnmNumber_ok (rounds := rounds) (c := x2) (d := x3) (r := r3 ++ (dm ++ sep :: data)) hb2 hdh hh g4
    (by rw [a4]; simp) hx3 (by simp only [List.length_cons]; omega)
  obtain ⟨s6, h6, a6, g6⟩ := pnmNumber_ok (rounds := rounds) (c := x3) (d := sep) (r := data) hb3 hdm (by omega) g5
    (by rw [a5]; simp) hsep' (by simp only [List.length_cons]; omega)
  have hlen : 1 ≤ dw.length ∧ 1 ≤ dh.length := ⟨List.length_pos_iff.2 hdw.1, List.length_pos_iff.2 hdh.1⟩
  have hinfo : pnmInfo rounds (Ctx.start (80 :: t :: (x1 :: r1 ++ (dw ++ (x2 :: r2 ++ (dh ++ (x3 :: r3 ++ (dm ++ sep :: data)))))))) = .ok (w, h, n, s6) := by
    rw [pnmInfo]
    simp only [e1, e2, e3]
    rw [if_neg htt, h4, Outcome.bind_ok]
    simp only
    rw [h5, Outcome.bind_ok]
    simp only
    rw [h6, Outcome.bind_ok, if_neg (by simp only; omega), htn]
  rw [loadPnm, if_neg (by simp only [List.length_cons, List.length_append]; omega), hinfo, Outcome.bind_ok]
  simp only
  split
  · rfl
  split
  · rfl
  have hfill : s6.fill (n * w * h) = ⟨n * w * h, fun i => if i < n * w * h then data[i]? else none⟩ := by
    rw [Ctx.fill]
    have hlen : ∀ i, ¬ i < n * w * h → (s6.buf ++ s6.rest.take (n * w * h - s6.buf.length))[i]? = none ∨ ¬ s6.buf.length < n * w * h := by
      intro i hi
      by_cases hc : s6.buf.length < n * w * h
      · left
        rw [List.getElem?_eq_none]
        rw [List.length_append, List.length_take]
        omega
      · exact .inr hc
    split
    · rename_i hc
      congr 1
      funext i
      by_cases hi : i < n * w * h
      · rw [if_pos hi]
        have := (fill_at s6 _ i hi).2
        rw [Ctx.fill, if_pos hc, a6] at this
        exact this
      · rw [if_neg hi]
        rcases hlen i hi with h | h
        · exact h
        · exact absurd hc h
    · rename_i hc
      congr 1
      funext i
      by_cases hi : i < n * w * h
      · rw [if_pos hi]
        have := (fill_at s6 _ i hi).2
        rw [Ctx.fill, if_neg hc, a6] at this
        exact this
      · rw [if_neg hi, List.getElem?_eq_none (by rw [List.length_take]; omega)]
  rw [hfill]

end Verif.Png
