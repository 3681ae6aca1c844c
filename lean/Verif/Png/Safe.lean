import Verif.Png.File
import Verif.Png.Props

/-! # Every file -/

namespace Verif.Png

/-! ## Reading chunks -/

theorem get8_le (s : Src) : (get8 s).2.all.length ≤ s.all.length := by
  cases h : s.all with
  | nil => rw [get8_end h, h]
  | cons a r => rw [(get8_all h).2]; simp

theorem get16_le (s : Src) : (get16 s).2.all.length ≤ s.all.length := by
  simp only [get16]
  exact Nat.le_trans (get8_le _) (get8_le _)

theorem get32_le (s : Src) : (get32 s).2.all.length ≤ s.all.length := by
  simp only [get32]
  exact Nat.le_trans (get16_le _) (get16_le _)

theorem get16_lt (s : Src) : (get16 s).1 < 2 ^ 16 := by
  simp only [get16]
  have := (get8 s).1.toNat_lt
  have := (get8 (get8 s).2).1.toNat_lt
  omega

theorem get32_lt (s : Src) : (get32 s).1 < 2 ^ 32 := by
  simp only [get32]
  have := get16_lt s
  have := get16_lt (get16 s).2
  omega

theorem skip_le (s : Src) (n : Nat) : (skip s n).all.length ≤ s.all.length := by
  rw [skip]
  split
  · simp [Src.all]
  · split
    · simp only [Src.all, List.nil_append, List.length_drop, List.length_append]; omega
    · simp only [Src.all, List.length_drop, List.length_append]; omega

theorem getn_le {s s' : Src} {n : Nat} {d : List UInt8} (h : getn s n = some (d, s')) : d.length = n ∧ s'.all.length ≤ s.all.length := by
  simp only [getn] at h
  split at h
  · split at h
    · rename_i h1 h2
      cases h
      refine ⟨by rw [List.length_append, h2]; omega, ?_⟩
      simp only [Src.all, List.nil_append, List.length_drop, List.length_append]; omega
    · cases h
  · cases h
    refine ⟨by rw [List.length_take]; omega, ?_⟩
    simp only [Src.all, List.length_drop, List.length_append]; omega

theorem readPal_le : ∀ (k i : Nat) (pal : Nat → Option UInt8) (s : Src), (readPal k i pal s).2.all.length ≤ s.all.length
  | 0, _, _, _ => Nat.le_refl _
  | k + 1, i, pal, s => by
    simp only [readPal]
    exact Nat.le_trans (readPal_le k _ _ _) (Nat.le_trans (get8_le _) (Nat.le_trans (get8_le _) (get8_le _)))

theorem readAlpha_le : ∀ (k i : Nat) (pal : Nat → Option UInt8) (s : Src), (readAlpha k i pal s).2.all.length ≤ s.all.length
  | 0, _, _, _ => Nat.le_refl _
  | k + 1, i, pal, s => by
    simp only [readAlpha]
    exact Nat.le_trans (readAlpha_le k _ _ _) (get8_le _)

theorem read16_le : ∀ (k : Nat) (s : Src), (read16 k s).1.length = k ∧ (read16 k s).2.all.length ≤ s.all.length
  | 0, _ => ⟨rfl, Nat.le_refl _⟩
  | k + 1, s => by
    simp only [read16, List.length_cons]
    have := read16_le k (get16 s).2
    exact ⟨by omega, Nat.le_trans this.2 (get16_le _)⟩

/-- what holds once there is a header -/
structure Good (st : St) : Prop where
  size : 0 < st.x ∧ 0 < st.y ∧ st.x ≤ 2 ^ 24 ∧ st.y ≤ 2 ^ 24
  depth : st.depth = 1 ∨ st.depth = 2 ∨ st.depth = 4 ∨ st.depth = 8 ∨ st.depth = 16
  color : (st.color = 0 ∧ st.n = 1) ∨ (st.color = 2 ∧ st.n = 3) ∨ (st.color = 3 ∧ st.n = 1) ∨ (st.color = 4 ∧ st.n = 2) ∨ (st.color = 6 ∧ st.n = 4)
  pal : st.color = 3 → (st.palN = 3 ∨ st.palN = 4) ∧ st.depth ≠ 16 ∧ st.trans = false
  noPal : st.color ≠ 3 → st.palN = 0
  trans : st.trans = true → st.n % 2 = 1 ∧ (st.depth = 16 → st.tc16.length = st.n) ∧ (st.depth ≠ 16 → st.tc.length = st.n)
  area : st.x * st.y * st.n ≤ 2 ^ 30

/-- what holds between the chunks -/
structure Inv (st : St) : Prop where
  new : st.first = true → st.idata = none ∧ st.palN = 0 ∧ st.trans = false
  old : st.first = false → Good st
  data : (st.idata.getD []).length < 2 ^ 31 ∧ st.limit < 2 ^ 32 ∧ st.palLen ≤ 256

/-- the next chunk, or an error -/
def Next (o : Outcome (St × Src)) (s : Src) : Prop :=
  (∃ st' s', o = .ok (st', s') ∧ Inv st' ∧ s'.all.length ≤ s.all.length) ∨ ∃ e, o = .throws e

theorem area_of {x y n : Nat} (hx : 0 < x) (hn : 0 < n) (h : ¬ 2 ^ 30 / x / n < y) : x * y * n ≤ 2 ^ 30 := by
  rw [Nat.div_div_eq_div_mul, Nat.not_lt, Nat.le_div_iff_mul_le (Nat.mul_pos hx hn)] at h
  calc x * y * n = y * (x * n) := by ring
    _ ≤ 2 ^ 30 := h

theorem next_ite {c : Prop} [Decidable c] {e : String} {o : Outcome (St × Src)} {s : Src} (h : ¬ c → Next o s) : Next (if c then .throws e else o) s := by
  by_cases hc : c
  · rw [if_pos hc]; exact .inr ⟨e, rfl⟩
  · rw [if_neg hc]; exact h hc

theorem header_next {st : St} (h : Inv st) (len : Nat) (s : Src) : Next (header st len s) s := by
  have hdata := h.data
  rw [header]
  refine next_ite fun h1 => ?_
  refine next_ite fun h2 => ?_
  have ls1 := get32_le s
  generalize get32 s = ps1 at ls1 ⊢
  obtain ⟨x, s1⟩ := ps1
  dsimp only at ls1 ⊢
  refine next_ite fun h3 => ?_
  have ls2 := get32_le s1
  generalize get32 s1 = ps2 at ls2 ⊢
  obtain ⟨y, s2⟩ := ps2
  dsimp only at ls2 ⊢
  refine next_ite fun h4 => ?_
  have ls3 := get8_le s2
  generalize get8 s2 = ps3 at ls3 ⊢
  obtain ⟨d, s3⟩ := ps3
  dsimp only at ls3 ⊢
  generalize d.toNat = d
  refine next_ite fun h5 => ?_
  have ls4 := get8_le s3
  generalize get8 s3 = ps4 at ls4 ⊢
  obtain ⟨c, s4⟩ := ps4
  dsimp only at ls4 ⊢
  generalize c.toNat = c
  refine next_ite fun h6 => ?_
  refine next_ite fun h7 => ?_
  refine next_ite fun h8 => ?_
  have ls5 := get8_le s4
  generalize get8 s4 = ps5 at ls5 ⊢
  obtain ⟨cm, s5⟩ := ps5
  dsimp only at ls5 ⊢
  refine next_ite fun h9 => ?_
  have ls6 := get8_le s5
  generalize get8 s5 = ps6 at ls6 ⊢
  obtain ⟨fl, s6⟩ := ps6
  dsimp only at ls6 ⊢
  refine next_ite fun h10 => ?_
  have ls7 := get8_le s6
  generalize get8 s6 = ps7 at ls7 ⊢
  obtain ⟨il, s7⟩ := ps7
  dsimp only at ls7 ⊢
  refine next_ite fun h11 => ?_
  refine next_ite fun h12 => ?_
  have hnew := h.new (by simpa using h1)
  have hle : s7.all.length ≤ s.all.length := by omega
  by_cases hc3 : c ≠ 3
  · simp only [if_neg hc3]
    rw [if_pos hnew.2.1]
    refine next_ite fun ha => ?_
    have hn : (c = 0 ∧ (if c / 2 % 2 = 1 then 3 else 1) + (if c / 4 % 2 = 1 then 1 else 0) = 1) ∨
        (c = 2 ∧ (if c / 2 % 2 = 1 then 3 else 1) + (if c / 4 % 2 = 1 then 1 else 0) = 3) ∨
        (c = 4 ∧ (if c / 2 % 2 = 1 then 3 else 1) + (if c / 4 % 2 = 1 then 1 else 0) = 2) ∨
        (c = 6 ∧ (if c / 2 % 2 = 1 then 3 else 1) + (if c / 4 % 2 = 1 then 1 else 0) = 4) := by
      rcases (show c = 0 ∨ c = 2 ∨ c = 4 ∨ c = 6 by omega) with rfl | rfl | rfl | rfl <;> decide
    generalize (if c / 2 % 2 = 1 then 3 else 1) + (if c / 4 % 2 = 1 then 1 else 0) = n at *
    refine .inl ⟨_, _, rfl, ⟨fun h => (by cases h), fun _ => ⟨?_, ?_, ?_, ?_, ?_, ?_, ?_⟩, hdata⟩, hle⟩
    · show 0 < x ∧ 0 < y ∧ x ≤ 2 ^ 24 ∧ y ≤ 2 ^ 24; omega
    · show d = 1 ∨ d = 2 ∨ d = 4 ∨ d = 8 ∨ d = 16; omega
    · show (c = 0 ∧ n = 1) ∨ (c = 2 ∧ n = 3) ∨ (c = 3 ∧ n = 1) ∨ (c = 4 ∧ n = 2) ∨ (c = 6 ∧ n = 4); omega
    · intro h; exact absurd h hc3
    · intro _; exact hnew.2.1
    · intro h; rw [show st.trans = true from h] at hnew; cases hnew.2.2
    · show x * y * n ≤ 2 ^ 30
      exact area_of (by omega) (by omega) ha
  · have hc3 : c = 3 := by omega
    simp only [if_pos hc3]
    rw [if_neg (by decide)]
    refine next_ite fun ha => ?_
    refine .inl ⟨_, _, rfl, ⟨fun h => (by cases h), fun _ => ⟨?_, ?_, ?_, ?_, ?_, ?_, ?_⟩, hdata⟩, hle⟩
    · show 0 < x ∧ 0 < y ∧ x ≤ 2 ^ 24 ∧ y ≤ 2 ^ 24; omega
    · show d = 1 ∨ d = 2 ∨ d = 4 ∨ d = 8 ∨ d = 16; omega
    · exact .inr (.inr (.inl ⟨hc3, rfl⟩))
    · intro _
      refine ⟨.inl rfl, ?_, hnew.2.2⟩
      show d ≠ 16
      omega
    · intro h; exact absurd hc3 h
    · intro h; rw [show st.trans = true from h] at hnew; cases hnew.2.2
    · have := area_of (by omega) (by decide) ha
      show x * y * 1 ≤ 2 ^ 30
      omega

theorem Good.of {st st' : St} (h : Good st) (h1 : st'.x = st.x) (h2 : st'.y = st.y) (h3 : st'.depth = st.depth) (h4 : st'.color = st.color) (h5 : st'.n = st.n)
    (h6 : st'.palN = st.palN) (h7 : st'.trans = st.trans) (h8 : st'.tc = st.tc) (h9 : st'.tc16 = st.tc16) : Good st' :=
  ⟨by rw [h1, h2]; exact h.size, by rw [h3]; exact h.depth, by rw [h4, h5]; exact h.color, by rw [h4, h6, h3, h7]; exact h.pal, by rw [h4, h6]; exact h.noPal,
    by rw [h7, h5, h3, h8, h9]; exact h.trans, by rw [h1, h2, h5]; exact h.area⟩

theorem palette_next {st : St} (h : Inv st) (len : Nat) (s : Src) : Next (palette st len s) s := by
  simp only [palette]
  split
  · exact .inr ⟨_, rfl⟩
  split
  · exact .inr ⟨_, rfl⟩
  split
  · exact .inr ⟨_, rfl⟩
  rw [if_neg (by omega)]
  refine .inl ⟨_, _, rfl, ⟨h.new, fun hf => (h.old hf).of rfl rfl rfl rfl rfl rfl rfl rfl rfl, h.data.1, h.data.2.1, ?_⟩, readPal_le _ _ _ _⟩
  show len / 3 ≤ 256
  omega

theorem transparent_next {st : St} (h : Inv st) (len : Nat) (s : Src) : Next (transparent st len s) s := by
  simp only [transparent]
  split
  · exact .inr ⟨_, rfl⟩
  rename_i hf
  have hf : st.first = false := by simpa using hf
  have hg := h.old hf
  split
  · exact .inr ⟨_, rfl⟩
  split
  · rename_i hp
    split
    · exact .inr ⟨_, rfl⟩
    split
    · exact .inr ⟨_, rfl⟩
    have h3 : st.color = 3 := by by_contra hc; exact hp (hg.noPal hc)
    have h256 := h.data.2.2
    rw [if_neg (by omega)]
    refine .inl ⟨_, _, rfl, ⟨fun hf' => absurd (hf.symm.trans hf') (by decide), fun _ => ⟨hg.size, hg.depth, hg.color, fun _ => ⟨.inr rfl, (hg.pal h3).2⟩,
      fun hc => absurd h3 hc, hg.trans, hg.area⟩, h.data⟩, readAlpha_le _ _ _ _⟩
  · rename_i hp
    split
    · exact .inr ⟨_, rfl⟩
    split
    · exact .inr ⟨_, rfl⟩
    rename_i hodd hlen
    have h3 : st.color ≠ 3 := fun hc => by have := (hg.pal hc).1; omega
    have hr := read16_le st.n s
    split
    · rename_i h16
      exact .inl ⟨_, _, rfl, ⟨fun hf' => absurd (hf.symm.trans hf') (by decide), fun _ => ⟨hg.size, hg.depth, hg.color, fun hc => absurd hc h3,
        hg.noPal, fun _ => ⟨by show st.n % 2 = 1; omega, fun _ => hr.1, fun h => absurd h16 h⟩, hg.area⟩, h.data⟩, hr.2⟩
    · rename_i h16
      have hd := hg.depth
      rw [Inflate.tab, show depthScale[st.depth]? = some (depthScale.getD st.depth 0) by
        rw [List.getD_eq_getElem?_getD, List.getElem?_eq_getElem (by simp [depthScale]; omega)]; rfl]
      exact .inl ⟨_, _, rfl, ⟨fun hf' => absurd (hf.symm.trans hf') (by decide), fun _ => ⟨hg.size, hg.depth, hg.color, fun hc => absurd hc h3,
        hg.noPal, fun _ => ⟨by show st.n % 2 = 1; omega, fun h => absurd h h16, fun _ => by simpa using hr.1⟩, hg.area⟩, h.data⟩, hr.2⟩

theorem other_next {st : St} (h : Inv st) (type len : Nat) (s : Src) : Next (other st type len s) s := by
  rw [other]
  split
  · exact .inl ⟨_, _, rfl, ⟨h.new, fun hf => (h.old hf).of rfl rfl rfl rfl rfl rfl rfl rfl rfl, h.data⟩, skip_le _ _⟩
  split
  · exact .inr ⟨_, rfl⟩
  split
  · exact .inr ⟨_, rfl⟩
  exact .inl ⟨_, _, rfl, h, skip_le _ _⟩

theorem imageData_next {rounds room : Nat} (hr : 32 ≤ rounds) {st : St} (h : Inv st) {len : Nat} (hlen : len < 2 ^ 32) (s : Src) :
    Next (imageData rounds room st len s) s := by
  have hd := h.data
  simp only [imageData]
  split
  · exact .inr ⟨_, rfl⟩
  rename_i hf
  split
  · exact .inr ⟨_, rfl⟩
  split
  · exact .inr ⟨_, rfl⟩
  rename_i hpl hint
  have hf : st.first = false := by simpa using hf
  rw [int32_small hd.1, int32] at hint
  have hsum : (st.idata.getD []).length + len < 2 ^ 31 := by
    split at hint <;> omega
  rw [Nat.mod_eq_of_lt (by omega)]
  have fin : ∀ st' : St, Good st' → st'.first = false → (st'.idata.getD []).length ≤ (st.idata.getD []).length → st'.limit < 2 ^ 32 → st'.palLen ≤ 256 →
      Next (match getn s len with
        | none => .throws "outofdata"
        | some (bytes, s) => .ok ({ st' with idata := st'.idata.map (· ++ bytes) }, s)) s := by
    intro st' hg' hf' hl' hlim' hpl'
    cases hgn : getn s len with
    | none => exact .inr ⟨_, rfl⟩
    | some v =>
      obtain ⟨bytes, s'⟩ := v
      have hle := getn_le hgn
      refine .inl ⟨_, _, rfl, ⟨fun h => absurd (hf'.symm.trans h) (by decide), fun _ => hg'.of rfl rfl rfl rfl rfl rfl rfl rfl rfl, ?_, hlim', hpl'⟩, hle.2⟩
      show ((st'.idata.map (· ++ bytes)).getD []).length < 2 ^ 31
      cases hi : st'.idata with
      | none => simp
      | some v => rw [hi] at hl'; simp only [Option.map_some, Option.getD_some, List.length_append] at hl' ⊢; omega
  split
  · have hpos : 0 < (if st.limit = 0 then (if 4096 < len then len else 4096) else st.limit) := by split <;> [split; skip] <;> omega
    rename_i hneed
    obtain ⟨l, h1, h2, h3⟩ := grow_ok hsum 31 (if st.limit = 0 then (if 4096 < len then len else 4096) else st.limit) hpos (by
      calc _ ≤ 2 ^ 31 := by omega
        _ ≤ _ * 2 ^ 31 := Nat.le_mul_of_pos_left _ hpos)
    have hlim : l < 2 ^ 32 := by
      have : (if st.limit = 0 then (if 4096 < len then len else 4096) else st.limit) < 2 ^ 32 := by split <;> [split; skip] <;> omega
      omega
    have hg := grow_more (31 + 1) (rounds - 32) _ _ h1
    rw [show 31 + 1 + (rounds - 32) = rounds by omega] at hg
    rw [hg, Outcome.bind_ok]
    split
    · exact .inr ⟨_, rfl⟩
    · rw [Outcome.bind_ok]
      exact fin _ ((h.old hf).of rfl rfl rfl rfl rfl rfl rfl rfl rfl) hf (Nat.le_refl _) hlim hd.2.2
  · rw [Outcome.bind_ok]
    exact fin _ (h.old hf) hf (Nat.le_refl _) hd.2.1 hd.2.2

/-! ## All the chunks -/

/-- the chunks up to the end, stb_image.h:4896-5050: what has been gathered from them, and nothing done with it yet -/
def gather (rounds room : Nat) : Nat → St → Src → Outcome St
  | 0, _, _ => .diverges
  | k + 1, st, s =>
    if (get32 (get32 s).2).1 = typeOf 'I' 'E' 'N' 'D' then .ok st
    else dispatch rounds room st (get32 (get32 s).2).1 (get32 s).1 (get32 (get32 s).2).2 >>= fun r => gather rounds room k r.1 (get32 r.2).2

theorem bind_assoc' {α β γ : Type} (o : Outcome α) (f : α → Outcome β) (g : β → Outcome γ) : (o >>= f) >>= g = o >>= fun a => f a >>= g := by
  cases o <;> rfl

theorem chunks_gather (rounds room : Nat) : ∀ (k : Nat) (st : St) (s : Src), chunks rounds room k st s = gather rounds room k st s >>= finish rounds room
  | 0, _, _ => rfl
  | k + 1, st, s => by
    simp only [chunks, gather]
    split
    · rfl
    · rw [bind_assoc']
      congr 1
      funext r
      exact chunks_gather rounds room k r.1 _

theorem gather_out {rounds room : Nat} (hr : 32 ≤ rounds) : ∀ (k : Nat) (st : St) (s : Src), Inv st → s.all.length < k →
    (∃ st', gather rounds room k st s = .ok st' ∧ Inv st') ∨ ∃ e, gather rounds room k st s = .throws e
  | 0, _, _, _, h => absurd h (Nat.not_lt_zero _)
  | k + 1, st, s, hi, hk => by
    rw [gather]
    split
    · exact .inl ⟨st, rfl, hi⟩
    have hn : Next (dispatch rounds room st (get32 (get32 s).2).1 (get32 s).1 (get32 (get32 s).2).2) (get32 (get32 s).2).2 := by
      rw [dispatch]
      split
      · exact header_next hi _ _
      split
      · exact palette_next hi _ _
      split
      · exact transparent_next hi _ _
      split
      · exact imageData_next hr hi (get32_lt s) _
      exact other_next hi _ _ _
    cases hs : s.all with
    | nil =>
      -- nothing is left
      have h1 : get32 s = (0, s) := by simp only [get32, get16, get8_end hs]; rfl
      rw [h1]
      simp only [h1]
      rw [dispatch, if_neg (by decide), if_neg (by decide), if_neg (by decide), if_neg (by decide), other, if_neg (by decide)]
      right
      split
      · exact ⟨_, rfl⟩
      · rw [if_pos (by decide)]; exact ⟨_, rfl⟩
    | cons a r =>
      rcases hn with ⟨st', s', h1, h2, h3⟩ | ⟨e, h1⟩
      · rw [h1, Outcome.bind_ok]
        refine gather_out hr k _ _ h2 ?_
        have l1 : (get32 s).2.all.length ≤ r.length := by
          simp only [get32]
          refine Nat.le_trans (get16_le _) ?_
          simp only [get16]
          refine Nat.le_trans (get8_le _) ?_
          rw [(get8_all hs).2]
        have l2 := get32_le (get32 s).2
        have l3 := get32_le s'
        rw [hs, List.length_cons] at hk
        show (get32 s').2.all.length < k
        omega
      · rw [h1]; exact .inr ⟨e, rfl⟩

end Verif.Png
