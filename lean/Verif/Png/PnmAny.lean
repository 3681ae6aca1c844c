import Verif.Png.Pnm

/-! # Any file that begins as a PGM or PPM file -/

namespace Verif.Png

/-- what is so at every moment -/
structure Ctx.Sound (s : Ctx) : Prop where
  eof : s.eof = true → s.rest = []
  done : s.more = false → s.eof = true ∧ s.buf = []

/-- how often the loops can go on -/
def Ctx.left (s : Ctx) : Nat := if s.atEof then 0 else s.buf.length + s.rest.length + 1

theorem refill_sound {s : Ctx} (hs : s.Sound) (hm : s.more = true) :
    (s.rest = [] ∧ s.refill = ⟨[0], [], true, false⟩) ∨ ∃ b bs, s.refill.buf = b :: bs ∧ s.rest = b :: (bs ++ s.refill.rest) ∧ s.refill.more = true ∧
      (s.refill.eof = true → s.refill.rest = []) := by
  by_cases hr : s.rest = []
  · left
    rw [Ctx.refill, hr]
    exact ⟨rfl, rfl⟩
  · right
    have hg : s.Good := ⟨hm, hs.eof⟩
    obtain ⟨h1, h2, h3⟩ := refill_good hg hr
    cases hbuf : s.refill.buf with
    | nil => exact absurd hbuf h3
    | cons b bs =>
      rw [Ctx.all, hbuf, List.cons_append] at h2
      exact ⟨b, bs, rfl, h2.symm, h1.more, h1.eof⟩

theorem get_any {s : Ctx} (hs : s.Sound) : s.get.2.Sound ∧ (s.all = s.get.1 :: s.get.2.all ∨ (s.all = [] ∧ s.get.1 = 0 ∧ s.get.2.all = [])) ∧
    (s.atEof = false → s.get.2.left < s.left) := by
  rw [Ctx.get]
  split
  · rename_i b bs hb
    have hm : s.more = true := by
      cases h : s.more with
      | true => rfl
      | false => rw [(hs.done h).2] at hb; cases hb
    refine ⟨⟨hs.eof, fun h => ?_⟩, .inl ?_, fun he => ?_⟩
    · simp only [hm] at h; cases h
    · simp only [Ctx.all, hb, List.cons_append]
    · rw [Ctx.left, Ctx.left, he]
      simp only [hb, List.length_cons]
      split <;> simp
  · rename_i hb
    by_cases hm : s.more = true
    · rw [if_pos hm]
      rcases refill_sound hs hm with ⟨hr, h⟩ | ⟨b, bs, h1, h2, h3, h4⟩
      · rw [h]
        refine ⟨⟨fun _ => rfl, fun _ => ⟨rfl, rfl⟩⟩, .inr ⟨by rw [Ctx.all, hb, hr]; rfl, rfl, rfl⟩, fun he => ?_⟩
        rw [Ctx.left, Ctx.left, he]
        simp [Ctx.atEof]
      · rw [h1]
        refine ⟨⟨h4, fun h => ?_⟩, .inl ?_, fun he => ?_⟩
        · simp only [h3] at h; cases h
        · simp only [Ctx.all, hb, h2, List.headD_cons, List.tail_cons, List.nil_append]
        · rw [Ctx.left, Ctx.left, he]
          simp only [List.tail_cons, hb, h2, List.length_cons, List.length_append, List.length_nil]
          rw [if_neg (by simp)]
          have key : ∀ (b : Bool) (n : Nat), (if b = true then 0 else n + 1) < 0 + (n + 1) + 1 := by
            intro b n
            cases b <;> simp
          exact key _ _
    · rw [if_neg hm]
      have hm : s.more = false := by simpa using hm
      refine ⟨hs, .inr ⟨?_, rfl, ?_⟩, fun he => ?_⟩
      · rw [Ctx.all, hb, hs.eof (hs.done hm).1]; rfl
      · rw [Ctx.all, hb, hs.eof (hs.done hm).1]; rfl
      · rw [Ctx.atEof, (hs.done hm).1, if_pos rfl, hm] at he
        cases he

/-- the byte read last and what is left are the end of the file, or all has been read -/
def Ctx.Seen (file : List UInt8) (c : UInt8) (s : Ctx) : Prop := (c :: s.all) <:+ file ∨ (s.all = [] ∧ c = 0)

theorem get_seen {file : List UInt8} {s : Ctx} (hs : s.Sound) (h : s.all <:+ file) : s.get.2.Seen file s.get.1 := by
  rcases (get_any hs).2.1 with h1 | ⟨_, h2, h3⟩
  · rw [h1] at h; exact .inl h
  · exact .inr ⟨h3, h2⟩

theorem Ctx.Seen.suffix {file : List UInt8} {c : UInt8} {s : Ctx} (h : s.Seen file c) : s.all <:+ file := by
  rcases h with h | ⟨h, _⟩
  · exact (List.suffix_cons c s.all).trans h
  · rw [h]; exact List.nil_suffix

theorem skipSpaces_any (file : List UInt8) : ∀ (k : Nat) (c : UInt8) (s : Ctx), s.Sound → s.Seen file c → s.left < k →
    ∃ c' s', skipSpaces k c s = .ok (c', s') ∧ s'.Sound ∧ s'.Seen file c' ∧ s'.left ≤ s.left
  | 0, _, _, _, _, h => absurd h (Nat.not_lt_zero _)
  | k + 1, c, s, hs, hf, hk => by
    rw [skipSpaces]
    split
    · rename_i hc
      simp only [Bool.and_eq_true, Bool.not_eq_true'] at hc
      obtain ⟨g1, _, g3⟩ := get_any hs
      have := g3 hc.1
      obtain ⟨c', s', h1, h2, h3, h4⟩ := skipSpaces_any file k s.get.1 s.get.2 g1 (get_seen hs hf.suffix) (by omega)
      exact ⟨c', s', h1, h2, h3, by omega⟩
    · exact ⟨c, s, rfl, hs, hf, Nat.le_refl _⟩

theorem skipLine_any (file : List UInt8) : ∀ (k : Nat) (c : UInt8) (s : Ctx), s.Sound → s.Seen file c → s.left < k →
    ∃ c' s', skipLine k c s = .ok (c', s') ∧ s'.Sound ∧ s'.Seen file c' ∧ s'.left ≤ s.left ∧ (s.atEof = false → c ≠ 10 → c ≠ 13 → s'.left < s.left)
  | 0, _, _, _, _, h => absurd h (Nat.not_lt_zero _)
  | k + 1, c, s, hs, hf, hk => by
    rw [skipLine]
    split
    · rename_i hc
      simp only [Bool.and_eq_true, Bool.not_eq_true'] at hc
      obtain ⟨g1, _, g3⟩ := get_any hs
      have := g3 hc.1.1
      obtain ⟨c', s', h1, h2, h3, h4, _⟩ := skipLine_any file k s.get.1 s.get.2 g1 (get_seen hs hf.suffix) (by omega)
      exact ⟨c', s', h1, h2, h3, by omega, fun _ _ _ => by omega⟩
    · rename_i hc
      refine ⟨c, s, rfl, hs, hf, Nat.le_refl _, fun he h1 h2 => absurd ?_ hc⟩
      simp [he, h1, h2]

theorem skipBlank_any (file : List UInt8) (rounds : Nat) : ∀ (k : Nat) (c : UInt8) (s : Ctx), s.Sound → s.Seen file c → s.left < k → s.left < rounds →
    ∃ c' s', skipBlank rounds k c s = .ok (c', s') ∧ s'.Sound ∧ s'.Seen file c' ∧ s'.left ≤ s.left
  | 0, _, _, _, _, h, _ => absurd h (Nat.not_lt_zero _)
  | k + 1, c, s, hs, hf, hk, hround => by
    obtain ⟨c1, s1, h1, h2, h3, h4⟩ := skipSpaces_any file rounds c s hs hf hround
    rw [skipBlank, h1, Outcome.bind_ok]
    split
    · exact ⟨c1, s1, rfl, h2, h3, h4⟩
    · rename_i hc
      simp only [Bool.or_eq_true, bne_iff_ne, ne_eq, not_or, Bool.not_eq_true, not_not] at hc
      obtain ⟨c2, s2, g1, g2, g3, g4, g5⟩ := skipLine_any file rounds c1 s1 h2 h3 (by omega)
      have := g5 hc.1 (by rw [hc.2]; decide) (by rw [hc.2]; decide)
      simp only
      rw [g1, Outcome.bind_ok]
      obtain ⟨c3, s3, k1, k2, k3, k4⟩ := skipBlank_any file rounds k c2 s2 g2 g3 (by omega) (by omega)
      exact ⟨c3, s3, k1, k2, k3, by omega⟩

/-- ten digits in a row -/
def TenFigures (file : List UInt8) : Prop := ∃ a ds b, file = a ++ (ds ++ b) ∧ ds.length = 10 ∧ ∀ c ∈ ds, Figure c

theorem pnmInteger_any (file : List UInt8) : ∀ (k v : Nat) (c : UInt8) (s : Ctx) (ds : List UInt8), s.Sound →
    ((ds ++ c :: s.all) <:+ file ∨ (s.all = [] ∧ c = 0)) → (∀ b ∈ ds, Figure b) → v < 10 ^ ds.length → s.left < k →
    (∃ v' c' s', pnmInteger k v c s = .ok (v', c', s') ∧ s'.Sound ∧ s'.Seen file c' ∧ s'.left ≤ s.left ∧ (v < 2 ^ 31 → v' < 2 ^ 31)) ∨
      (pnmInteger k v c s = .ub ∧ TenFigures file)
  | 0, _, _, _, _, _, _, _, _, h => absurd h (Nat.not_lt_zero _)
  | k + 1, v, c, s, ds, hs, hf, hds, hv, hk => by
    have hseen : s.Seen file c := by
      rcases hf with hf | hf
      · exact .inl ((List.suffix_append ds _).trans hf)
      · exact .inr hf
    rw [pnmInteger]
    split
    · rename_i hc
      simp only [Bool.and_eq_true, Bool.not_eq_true'] at hc
      have hfig := (figure_iff c).1 hc.2
      have hf : (ds ++ c :: s.all) <:+ file := by
        rcases hf with hf | ⟨_, rfl⟩
        · exact hf
        · revert hfig; simp [Figure]
      have hfig' := hfig
      obtain ⟨f1, f2⟩ := hfig'
      have hv' : v * 10 + (c.toNat - 48) < 10 ^ (ds.length + 1) := by
        rw [Nat.pow_succ]; omega
      simp only
      split
      · rename_i hov
        right
        refine ⟨rfl, ?_⟩
        have h10 : 10 ≤ ds.length + 1 := by
          by_contra hlt
          have : 10 ^ (ds.length + 1) ≤ 10 ^ 9 := Nat.pow_le_pow_right (by decide) (by omega)
          omega
        obtain ⟨a, ha⟩ := hf
        refine ⟨a, (ds ++ [c]).take 10, (ds ++ [c]).drop 10 ++ s.all, ?_, ?_, fun b hb => ?_⟩
        · rw [← ha, ← List.append_assoc (List.take 10 _), List.take_append_drop]; simp
        · rw [List.length_take, List.length_append, List.length_singleton]; omega
        · have := List.mem_of_mem_take hb
          rcases List.mem_append.1 this with h | h
          · exact hds b h
          · rw [List.mem_singleton.1 h]; exact hfig
      · obtain ⟨g1, g2, g3⟩ := get_any hs
        have := g3 hc.1
        rcases pnmInteger_any file k (v * 10 + (c.toNat - 48)) s.get.1 s.get.2 (ds ++ [c]) g1 (by
            rcases g2 with h1 | ⟨_, h2, h3⟩
            · left
              rw [h1] at hf
              simpa using hf
            · exact .inr ⟨h3, h2⟩)
          (fun b hb => by
            rcases List.mem_append.1 hb with h | h
            · exact hds b h
            · rw [List.mem_singleton.1 h]; exact hfig) (by simpa using hv') (by omega) with ⟨v', c', s', h1, h2, h3, h4, h5⟩ | h
        · exact .inl ⟨v', c', s', h1, h2, h3, by omega, fun _ => h5 (by omega)⟩
        · exact .inr h
    · exact .inl ⟨v, c, s, rfl, hs, hseen, Nat.le_refl _, id⟩

theorem pnmNumber_any (file : List UInt8) {rounds : Nat} {c : UInt8} {s : Ctx} (hs : s.Sound) (hf : s.Seen file c) (hr : s.left < rounds) :
    (∃ v' c' s', pnmNumber rounds c s = .ok (v', c', s') ∧ s'.Sound ∧ s'.Seen file c' ∧ s'.left ≤ s.left ∧ v' < 2 ^ 31) ∨
      (pnmNumber rounds c s = .ub ∧ TenFigures file) := by
  obtain ⟨c1, s1, h1, h2, h3, h4⟩ := skipBlank_any file rounds rounds c s hs hf hr hr
  rw [pnmNumber, h1, Outcome.bind_ok]
  rcases pnmInteger_any file rounds 0 c1 s1 [] h2 (by simpa [Ctx.Seen] using h3) (by simp) (by simp) (by omega) with ⟨v', c', s', g1, g2, g3, g4, g5⟩ | g
  · exact .inl ⟨v', c', s', g1, g2, g3, by omega, g5 (by decide)⟩
  · exact .inr g

theorem start_sound {file : List UInt8} (h : file ≠ []) : (Ctx.start file).Sound ∧ (Ctx.start file).all = file ∧ (Ctx.start file).left ≤ file.length + 1 := by
  obtain ⟨h1, h2⟩ := start_good h
  refine ⟨⟨h1.eof, fun h => ?_⟩, h2, ?_⟩
  · rw [h1.more] at h; cases h
  · rw [Ctx.left]
    have := congrArg List.length h2
    rw [Ctx.all, List.length_append] at this
    split <;> omega

/-- what becomes of any file -/
theorem loadPnm_any (rounds room : Nat) (file : List UInt8) (hr : file.length + 1 < rounds) :
    (∃ e, loadPnm rounds room file = .throws e) ∨ (loadPnm rounds room file = .ub ∧ TenFigures file) ∨
      ∃ (i : Image) (pix : List UInt8), loadPnm rounds room file = .ok i ∧ (i.n = 1 ∨ i.n = 3) ∧ i.depth = 8 ∧ i.x < 2 ^ 31 ∧ i.y < 2 ^ 31 ∧
        i.out.size = i.n * i.x * i.y ∧ i.n * i.x * i.y < 2 ^ 31 ∧ pix <:+ file ∧ ∀ q < i.n * i.x * i.y, i.out.at_ q = pix[q]? := by
  rw [loadPnm]
  split
  · exact .inl ⟨_, rfl⟩
  rename_i hlen
  obtain ⟨h0, ha, hl⟩ := start_sound (file := file) (by rintro rfl; simp at hlen)
  rw [pnmInfo]
  simp only
  have k1 := get_any h0
  have k2 := get_any k1.1
  have k3 := get_any k2.1
  have s1 := get_seen (file := file) h0 (by rw [ha]; exact List.suffix_refl _)
  have s2 := get_seen k1.1 s1.suffix
  have s3 := get_seen k2.1 s2.suffix
  have mono : ∀ {s : Ctx}, s.Sound → s.get.2.left ≤ s.left := by
    intro s hs
    by_cases he : s.atEof = true
    · have : s.get.2.atEof = true := by
        rw [Ctx.atEof] at he ⊢
        split at he
        · rename_i heof
          have hrest := hs.eof heof
          rw [Ctx.get]
          split
          · rename_i b bs hb
            simp only [hb] at he
            split at he
            · cases he
            · rename_i hm
              simp [heof, hm]
          · split
            · rw [Ctx.refill, hrest]; rfl
            · rename_i hm
              rfl
        · cases he
      rw [Ctx.left, if_pos this]
      exact Nat.zero_le _
    · exact Nat.le_of_lt ((get_any hs).2.2 (by simpa using he))
  have m1 := mono h0
  have m2 := mono k1.1
  have m3 := mono k2.1
  split
  · exact .inl ⟨_, rfl⟩
  generalize hn : (if (Ctx.start file).get.2.get.1 = 54 then 3 else 1) = n
  have hn13 : n = 1 ∨ n = 3 := by rw [← hn]; split <;> simp
  rcases pnmNumber_any file k3.1 s3 (show _ < rounds by omega) with ⟨x, c4, s4, h4, w4, e4, l4, b4⟩ | ⟨h, ht⟩
  swap
  · rw [h]; exact .inr (.inl ⟨rfl, ht⟩)
  rw [h4, Outcome.bind_ok]
  simp only
  rcases pnmNumber_any file w4 e4 (show _ < rounds by omega) with ⟨y, c5, s5, h5, w5, e5, l5, b5⟩ | ⟨h, ht⟩
  swap
  · rw [h]; exact .inr (.inl ⟨rfl, ht⟩)
  rw [h5, Outcome.bind_ok]
  simp only
  rcases pnmNumber_any file w5 e5 (show _ < rounds by omega) with ⟨m, c6, s6, h6, w6, e6, l6, b6⟩ | ⟨h, ht⟩
  swap
  · rw [h]; exact .inr (.inl ⟨rfl, ht⟩)
  rw [h6, Outcome.bind_ok]
  simp only
  split
  · exact .inl ⟨_, rfl⟩
  rw [Outcome.bind_ok]
  simp only
  split
  · exact .inl ⟨_, rfl⟩
  split
  · exact .inl ⟨_, rfl⟩
  rename_i hsz _
  refine .inr (.inr ⟨_, s6.all, rfl, hn13, rfl, b4, b5, ?_, (show n * x * y < 2 ^ 31 by omega), e6.suffix, fun q hq => (fill_at s6 _ q hq).2⟩)
  rw [Ctx.fill]
  split <;> rfl

end Verif.Png
