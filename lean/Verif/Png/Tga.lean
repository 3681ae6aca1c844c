import Verif.Png.TgaModel
import Verif.Png.BmpLoad

/-! # Reading TGA files -/

namespace Verif.Png

theorem getLe16_drop {file : List UInt8} {k : Nat} {s : Src} (h : s.all = file.drop k) :
    (getLe16 s).1 = le16 file k ∧ (getLe16 s).2.all = file.drop (k + 2) := by
  have h1 := get8_drop h
  have h2 := get8_drop h1.2
  refine ⟨?_, h2.2⟩
  simp only [getLe16, le16]
  rw [h1.1, h2.1, Nat.mul_comm 256]

/-- the header of a file -/
def tgaOf (file : List UInt8) : Tga where
  offset := (byteAt file 0).toNat
  indexed := byteAt file 1 != 0
  type := if 8 ≤ (byteAt file 2).toNat then (byteAt file 2).toNat - 8 else (byteAt file 2).toNat
  rle := decide (8 ≤ (byteAt file 2).toNat)
  palStart := le16 file 3
  palLen := le16 file 5
  palBits := (byteAt file 7).toNat
  w := le16 file 12
  h := le16 file 14
  bpp := (byteAt file 16).toNat
  inverted := (byteAt file 17).toNat / 32 % 2 == 0

theorem start_drop (file : List UInt8) : (start file).all = file.drop 0 := by rw [start_all]; rfl

theorem tgaHeader_of (file : List UInt8) : (tgaHeader (start file)).1 = tgaOf file ∧ (tgaHeader (start file)).2.all = file.drop 18 := by
  have a0 := get8_drop (start_drop file)
  have a1 := get8_drop a0.2
  have a2 := get8_drop a1.2
  have a3 := getLe16_drop a2.2
  have a4 := getLe16_drop a3.2
  have a5 := get8_drop a4.2
  have a6 := getLe16_drop a5.2
  have a7 := getLe16_drop a6.2
  have a8 := getLe16_drop a7.2
  have a9 := getLe16_drop a8.2
  have b0 := get8_drop a9.2
  have b1 := get8_drop b0.2
  refine ⟨?_, b1.2⟩
  simp only [tgaHeader, tgaOf]
  rw [a0.1, a1.1, a2.1, a3.1, a4.1, a5.1, a8.1, a9.1, b0.1, b1.1]

theorem tgaTestEnd_of {file : List UInt8} {color : UInt8} {s : Src} (h : s.all = file.drop 12) : tgaTestEnd color s = true ↔
    0 < le16 file 12 ∧ 0 < le16 file 14 ∧ (color = 1 → byteAt file 16 = 8 ∨ byteAt file 16 = 16) ∧ tgaDepth (byteAt file 16).toNat = true := by
  have a1 := getLe16_drop h
  have a2 := getLe16_drop a1.2
  have a3 := get8_drop a2.2
  simp only [tgaTestEnd]
  rw [a1.1, a2.1, a3.1]
  by_cases h1 : le16 file 12 < 1
  · rw [if_pos h1]; simp; omega
  · rw [if_neg h1]
    by_cases h2 : le16 file 14 < 1
    · rw [if_pos h2]; simp; omega
    · rw [if_neg h2]
      by_cases h3 : color = 1 ∧ byteAt file 16 ≠ 8 ∧ byteAt file 16 ≠ 16
      · rw [if_pos h3]
        constructor
        · intro h; cases h
        · rintro ⟨_, _, h, _⟩
          rcases h h3.1 with h | h
          · exact absurd h h3.2.1
          · exact absurd h h3.2.2
      · rw [if_neg h3]
        refine ⟨fun h => ⟨by omega, by omega, fun hc => ?_, h⟩, fun h => h.2.2.2⟩
        by_contra hh
        exact h3 ⟨hc, fun e => hh (.inl e), fun e => hh (.inr e)⟩

/-- the files that are taken for TGA files -/
theorem tgaTest_of (file : List UInt8) : tgaTest (start file) = true ↔
    (byteAt file 1 = 0 ∧ (byteAt file 2 = 2 ∨ byteAt file 2 = 3 ∨ byteAt file 2 = 10 ∨ byteAt file 2 = 11) ∨
      byteAt file 1 = 1 ∧ (byteAt file 2 = 1 ∨ byteAt file 2 = 9) ∧ tgaDepth (byteAt file 7).toNat = true ∧ (byteAt file 16 = 8 ∨ byteAt file 16 = 16)) ∧
    0 < le16 file 12 ∧ 0 < le16 file 14 ∧ tgaDepth (byteAt file 16).toNat = true := by
  have a0 := get8_drop (start_drop file)
  have a1 := get8_drop a0.2
  have a2 := get8_drop a1.2
  have s4 : (skip (get8 (get8 (get8 (start file)).2).2).2 4).all = file.drop 7 := by
    rw [skip_drop (by decide), a2.2, List.drop_drop]
  have a7 := get8_drop s4
  have s8 : (skip (get8 (skip (get8 (get8 (get8 (start file)).2).2).2 4)).2 4).all = file.drop 12 := by
    rw [skip_drop (by decide), a7.2, List.drop_drop]
  have s9 : (skip (get8 (get8 (get8 (start file)).2).2).2 9).all = file.drop 12 := by
    rw [skip_drop (by decide), a2.2, List.drop_drop]
  simp only [tgaTest]
  rw [a1.1, a2.1, a7.1]
  simp only [Nat.zero_add, Nat.reduceAdd]
  by_cases h1 : 1 < (byteAt file 1).toNat
  · rw [if_pos h1]
    constructor
    · intro h; cases h
    · rintro ⟨⟨h, _⟩ | ⟨h, _⟩, _⟩
      · rw [h] at h1; exact absurd h1 (by decide)
      · rw [h] at h1; exact absurd h1 (by decide)
  · rw [if_neg h1]
    by_cases h2 : byteAt file 1 = 1
    · rw [if_pos h2]
      by_cases h3 : byteAt file 2 ≠ 1 ∧ byteAt file 2 ≠ 9
      · rw [if_pos h3]
        constructor
        · intro h; cases h
        · rintro ⟨⟨h, _⟩ | ⟨_, h, _⟩, _⟩
          · rw [h2] at h; exact absurd h (by decide)
          · rcases h with h | h
            · exact absurd h h3.1
            · exact absurd h h3.2
      · rw [if_neg h3]
        have h3' : byteAt file 2 = 1 ∨ byteAt file 2 = 9 := by
          by_contra hh
          exact h3 ⟨fun e => hh (.inl e), fun e => hh (.inr e)⟩
        by_cases h4 : tgaDepth (byteAt file 7).toNat = true
        · rw [if_pos h4, tgaTestEnd_of s8]
          constructor
          · rintro ⟨a, b, c, d⟩
            exact ⟨.inr ⟨h2, h3', h4, c h2⟩, a, b, d⟩
          · rintro ⟨⟨h, _⟩ | ⟨_, _, _, c⟩, a, b, d⟩
            · rw [h2] at h; exact absurd h (by decide)
            · exact ⟨a, b, fun _ => c, d⟩
        · rw [if_neg h4]
          constructor
          · intro h; cases h
          · rintro ⟨⟨h, _⟩ | ⟨_, _, h, _⟩, _⟩
            · rw [h2] at h; exact absurd h (by decide)
            · exact absurd h h4
    · rw [if_neg h2]
      have h0 : byteAt file 1 = 0 := by
        rw [← UInt8.toNat_inj] at h2 ⊢
        have : (1 : UInt8).toNat = 1 := rfl
        have : (0 : UInt8).toNat = 0 := rfl
        omega
      by_cases h3 : byteAt file 2 ≠ 2 ∧ byteAt file 2 ≠ 3 ∧ byteAt file 2 ≠ 10 ∧ byteAt file 2 ≠ 11
      · rw [if_pos h3]
        constructor
        · intro h; cases h
        · rintro ⟨⟨_, h⟩ | ⟨h, _⟩, _⟩
          · rcases h with h | h | h | h
            · exact absurd h h3.1
            · exact absurd h h3.2.1
            · exact absurd h h3.2.2.1
            · exact absurd h h3.2.2.2
          · exact absurd h h2
      · rw [if_neg h3, tgaTestEnd_of s9]
        have h3' : byteAt file 2 = 2 ∨ byteAt file 2 = 3 ∨ byteAt file 2 = 10 ∨ byteAt file 2 = 11 := by
          by_contra hh
          exact h3 ⟨fun e => hh (.inl e), fun e => hh (.inr (.inl e)), fun e => hh (.inr (.inr (.inl e))), fun e => hh (.inr (.inr (.inr e)))⟩
        constructor
        · rintro ⟨a, b, _, d⟩
          exact ⟨.inl ⟨h0, h3'⟩, a, b, d⟩
        · rintro ⟨_, a, b, d⟩
          exact ⟨a, b, fun h => absurd h h2, d⟩

/-! ## packets -/

/-- `ps` are the places of the pixels that packets which begin at `k` give, `b` bytes each: a packet is a byte and either as many pixels or one
that is repeated -/
inductive Packets (file : List UInt8) (b : Nat) : Nat → List Nat → Prop
  | nil (k : Nat) : Packets file b k []
  | raw (k n : Nat) (ps : List Nat) (hn : n < 128) (h : (byteAt file k).toNat = n) (hp : Packets file b (k + 1 + (n + 1) * b) ps) :
      Packets file b k ((List.range (n + 1)).map (fun i => k + 1 + i * b) ++ ps)
  | run (k n : Nat) (ps : List Nat) (hn : n < 128) (h : (byteAt file k).toNat = 128 + n) (hp : Packets file b (k + 1 + b) ps) :
      Packets file b k (List.replicate (n + 1) (k + 1) ++ ps)

theorem packets_long (file : List UInt8) (b : Nat) : ∀ (N k : Nat), ∃ ps, Packets file b k ps ∧ N ≤ ps.length
  | 0, k => ⟨[], .nil k, Nat.zero_le _⟩
  | N + 1, k => by
    have hb := (byteAt file k).toNat_lt
    by_cases h : (byteAt file k).toNat < 128
    · obtain ⟨ps, h1, h2⟩ := packets_long file b N (k + 1 + ((byteAt file k).toNat + 1) * b)
      exact ⟨_, .raw k _ ps h rfl h1, by simp; omega⟩
    · obtain ⟨ps, h1, h2⟩ := packets_long file b N (k + 1 + b)
      exact ⟨_, .run k ((byteAt file k).toNat - 128) ps (by omega) (by omega) h1, by simp; omega⟩

/-- `p` is about to give the pixels at the places `ps` -/
def Ready (file : List UInt8) (b : Nat) (px : Nat → List UInt8) (rle : Bool) (p : Tp) (ps : List Nat) : Prop :=
  if rle then
    (p.count = 0 ∧ ∃ k, p.s.all = file.drop k ∧ Packets file b k ps) ∨
    (∃ (c k : Nat) (rest : List Nat), p.count = c + 1 ∧ p.rep = false ∧ p.s.all = file.drop k ∧
      ps = (List.range (c + 1)).map (fun i => k + i * b) ++ rest ∧ Packets file b (k + (c + 1) * b) rest) ∨
    (∃ (c q k : Nat) (rest : List Nat), p.count = c + 1 ∧ p.rep = true ∧ p.next = false ∧ p.raw = px q ∧ p.s.all = file.drop k ∧
      ps = List.replicate (c + 1) q ++ rest ∧ Packets file b k rest)
  else ∃ k m, p.s.all = file.drop k ∧ ps = (List.range m).map (fun i => k + i * b)

theorem copy_ok {n i : Nat} {raw : List UInt8} {m : Buf} (h : i * n + n ≤ m.size) :
    ∃ m', loop n (fun j m => store m (i * n + j) (raw.getD j 0)) m = .ok m' ∧ m'.size = m.size ∧
      (∀ j < n, m'.at_ (i * n + j) = some (raw.getD j 0)) ∧ ∀ q, q < i * n → m'.at_ q = m.at_ q := by
  refine loop_inv (P := fun (t : Nat) (m' : Buf) => m'.size = m.size ∧ (∀ j < t, m'.at_ (i * n + j) = some (raw.getD j 0)) ∧
    ∀ q, q < i * n → m'.at_ q = m.at_ q) ⟨rfl, fun j hj => absurd hj (by omega), fun _ _ => rfl⟩ ?_
  rintro t ht m1 ⟨h1, h2, h3⟩
  obtain ⟨m2, a1, a2, a3, a4⟩ := store_ok (m := m1) (i := i * n + t) (raw.getD t 0) (by omega)
  refine ⟨m2, a1, by omega, fun j hj => ?_, fun q hq => by rw [a4 _ (by omega)]; exact h3 q hq⟩
  by_cases hjt : j = t
  · rw [hjt]; exact a3
  · rw [a4 _ (by omega)]; exact h2 j (by omega)

theorem range_places (k b m : Nat) : (List.range (m + 1)).map (fun i => k + i * b) = k :: (List.range m).map (fun i => k + b + i * b) := by
  rw [List.range_succ_eq_map, List.map_cons, List.map_map]
  simp only [Nat.zero_mul, Nat.add_zero, List.cons.injEq, true_and]
  refine List.map_congr_left fun i _ => ?_
  simp only [Function.comp, Nat.succ_mul]
  omega

/-- the pixels are read by `px` -/
def Reads (file : List UInt8) (b : Nat) (px : Nat → List UInt8) (pix : Src → Outcome (List UInt8 × Src)) : Prop :=
  ∀ k s, s.all = file.drop k → ∃ s', pix s = .ok (px k, s') ∧ s'.all = file.drop (k + b)

theorem after_read {file : List UInt8} {b c k : Nat} {px : Nat → List UInt8} {p : Tp} {rest : List Nat} (hc : p.count = c) (hrep : p.rep = false)
    (hs : p.s.all = file.drop (k + b)) (hp : Packets file b (k + (c + 1) * b) rest) :
    Ready file b px true p ((List.range c).map (fun i => k + b + i * b) ++ rest) := by
  rw [Ready, if_pos rfl]
  cases c with
  | zero =>
    left
    refine ⟨hc, k + b, hs, ?_⟩
    simpa using hp
  | succ c =>
    right; left
    refine ⟨c, k + b, rest, by rw [hc]; rfl, hrep, hs, rfl, ?_⟩
    rw [show k + b + (c + 1) * b = k + (c + 1 + 1) * b by ring]
    exact hp

theorem after_run {file : List UInt8} {b c q k : Nat} {px : Nat → List UInt8} {p : Tp} {rest : List Nat} (hc : p.count = c) (hrep : p.rep = true)
    (hn : p.next = false) (hr : p.raw = px q) (hs : p.s.all = file.drop k) (hp : Packets file b k rest) :
    Ready file b px true p (List.replicate c q ++ rest) := by
  rw [Ready, if_pos rfl]
  cases c with
  | zero => left; exact ⟨hc, k, hs, by simpa using hp⟩
  | succ c => right; right; exact ⟨c, q, k, rest, by rw [hc]; rfl, hrep, hn, hr, hs, rfl, hp⟩

/-- what is known of the state when the pixel has been copied -/
theorem packet_ok {file : List UInt8} {b : Nat} {px : Nat → List UInt8} {pix : Src → Outcome (List UInt8 × Src)} (hpx : Reads file b px pix) {rle : Bool} {p : Tp} {q : Nat}
    {ps : List Nat} (hp : Ready file b px rle p (q :: ps)) :
    ∃ p1, (if (tgaPacket rle p).next then pix (tgaPacket rle p).s >>= fun r => .ok { tgaPacket rle p with raw := r.1, s := r.2, next := false } else .ok (tgaPacket rle p)) =
        .ok p1 ∧ p1.out = p.out ∧ p1.raw = px q ∧ ∀ m, Ready file b px rle { p1 with out := m, count := p1.count - 1 } ps := by
  cases rle with
  | false =>
    rw [Ready, if_neg (by decide)] at hp
    obtain ⟨k, m, hs, he⟩ := hp
    cases m with
    | zero => cases he
    | succ m =>
      rw [range_places] at he
      cases he
      obtain ⟨s', h1, h2⟩ := hpx q p.s hs
      have e : tgaPacket false p = { p with next := true } := rfl
      rw [e]
      simp only [if_true]
      rw [h1, Outcome.bind_ok]
      refine ⟨_, rfl, rfl, rfl, fun m' => ?_⟩
      rw [Ready, if_neg (by decide)]
      exact ⟨q + b, m, h2, rfl⟩
  | true =>
    rw [Ready, if_pos rfl] at hp
    rcases hp with ⟨hc, k, hs, hP⟩ | ⟨c, k, rest, hc, hrep, hs, he, hP⟩ | ⟨c, q', k, rest, hc, hrep, hn, hr, hs, he, hP⟩
    · have e : tgaPacket true p = { p with s := (get8 p.s).2, count := 1 + ((get8 p.s).1.toNat % 128 : Nat), rep := decide (128 ≤ (get8 p.s).1.toNat), next := true } := by
        rw [tgaPacket, if_pos rfl, if_pos hc]
      rw [e]
      have hg := get8_drop hs
      obtain ⟨s', h1, h2⟩ := hpx (k + 1) _ hg.2
      simp only [if_true]
      rw [h1, Outcome.bind_ok]
      refine ⟨_, rfl, rfl, ?_⟩
      generalize hps : q :: ps = l at hP
      cases hP with
      | nil => cases hps
      | raw _ n ps' hn h hp' =>
        rw [range_places] at hps
        cases hps
        refine ⟨rfl, fun m' => ?_⟩
        refine after_read (c := n) (k := k + 1) ?_ ?_ h2 hp'
        · simp only; rw [hg.1, h, Nat.mod_eq_of_lt hn]; omega
        · simp only; rw [hg.1, h]; simp; omega
      | run _ n ps' hn h hp' =>
        rw [List.replicate_succ] at hps
        cases hps
        refine ⟨rfl, fun m' => ?_⟩
        refine after_run (c := n) (k := k + 1 + b) ?_ ?_ rfl rfl h2 hp'
        · simp only; rw [hg.1, h]; omega
        · simp only; rw [hg.1, h]; simp
    · have e : tgaPacket true p = { p with next := true } := by
        rw [tgaPacket, if_pos rfl, if_neg (by omega), if_pos hrep]
      rw [e]
      rw [range_places] at he
      cases he
      obtain ⟨s', h1, h2⟩ := hpx q p.s hs
      simp only [if_true]
      rw [h1, Outcome.bind_ok]
      refine ⟨_, rfl, rfl, rfl, fun m' => ?_⟩
      refine after_read (c := c) (k := q) ?_ hrep h2 hP
      simp only; omega
    · have e : tgaPacket true p = p := by
        rw [tgaPacket, if_pos rfl, if_neg (by omega), if_neg (by rw [hrep]; decide)]
      rw [e]
      rw [List.replicate_succ] at he
      cases he
      rw [hn]
      simp only [Bool.false_eq_true, if_false]
      refine ⟨p, rfl, rfl, hr, fun m' => ?_⟩
      refine after_run (c := c) (k := k) ?_ hrep hn hr hs hP
      simp only; omega

/-- all pixels -/
theorem steps_ok {file : List UInt8} {b n : Nat} {px : Nat → List UInt8} {t : Tga} {rgb16 : Bool} {pal : List UInt8}
    (hpx : Reads file b px (tgaPixel t n rgb16 pal)) {p : Tp} {ps : List Nat} (hp : Ready file b px t.rle p ps) {N : Nat} (hN : N ≤ ps.length)
    (hm : p.out.size = N * n) : ∃ p', loop N (tgaStep t n rgb16 pal) p = .ok p' ∧ p'.out.size = N * n ∧
      ∀ i < N, ∀ j < n, p'.out.at_ (i * n + j) = some ((px (ps.getD i 0)).getD j 0) := by
  have := loop_inv (f := tgaStep t n rgb16 pal) (n := N) (s := p) (P := fun (T : Nat) (p' : Tp) => Ready file b px t.rle p' (ps.drop T) ∧ p'.out.size = N * n ∧
    ∀ i < T, ∀ j < n, p'.out.at_ (i * n + j) = some ((px (ps.getD i 0)).getD j 0)) ⟨by simpa using hp, hm, fun i hi => absurd hi (by omega)⟩ ?_
  · obtain ⟨p', h0, _, h2, h3⟩ := this
    exact ⟨p', h0, h2, h3⟩
  rintro T hT p1 ⟨h1, h2, h3⟩
  rw [List.drop_eq_getElem_cons (by omega)] at h1
  obtain ⟨p2, a1, a2, a3, a4⟩ := packet_ok hpx h1
  have hle : (T + 1) * n ≤ N * n := Nat.mul_le_mul_right _ hT
  rw [Nat.add_mul, Nat.one_mul] at hle
  obtain ⟨m, b1, b2, b3, b4⟩ := copy_ok (n := n) (i := T) (raw := p2.raw) (m := p2.out) (by rw [a2]; omega)
  refine ⟨{ p2 with out := m, count := p2.count - 1 }, ?_, a4 m, by simp only; rw [b2, a2]; exact h2, fun i hi j hj => ?_⟩
  · simp only [tgaStep]
    rw [a1, Outcome.bind_ok, b1, Outcome.bind_ok]
  · simp only
    by_cases hiT : i = T
    · subst hiT
      have e : ps.getD i 0 = ps[i]'(by omega) := by
        rw [List.getD_eq_getElem?_getD, List.getElem?_eq_getElem (by omega)]; rfl
      rw [b3 j hj, a3, e]
    · have : (i + 1) * n ≤ T * n := Nat.mul_le_mul_right _ (by omega)
      rw [Nat.add_mul, Nat.one_mul] at this
      rw [b4 _ (by omega), a2]
      exact h3 i (by omega) j hj

/-! ## rows and colours -/

theorem tgaFlip_ok {w h : Nat} {m : Buf} (hm : m.size = w * h) : ∃ m', tgaFlip w h m = .ok m' ∧ m'.size = m.size ∧
    ∀ l < h, ∀ i < w, m'.at_ (l * w + i) = m.at_ ((h - 1 - l) * w + i) := by
  have := loop_inv (f := fun j m => loop w (fun i m => swap m (j * w + i) ((h - 1 - j) * w + i)) m) (n := (h + 1) / 2) (s := m)
    (P := fun (t : Nat) (m' : Buf) => m'.size = m.size ∧ ∀ l < h, ∀ i < w, m'.at_ (l * w + i) =
      if l < t ∨ h - 1 - l < t then m.at_ ((h - 1 - l) * w + i) else m.at_ (l * w + i)) ⟨rfl, fun l hl i hi => by rw [if_neg (by omega)]⟩ ?_
  · obtain ⟨m', h0, h1, h2⟩ := this
    refine ⟨m', h0, h1, fun l hl i hi => ?_⟩
    rw [h2 l hl i hi, if_pos (by omega)]
  rintro t ht m1 ⟨h1, h2⟩
  by_cases hmid : t = h - 1 - t
  · rw [← hmid]
    have hin : ∀ i < w, t * w + i < m1.size := by
      intro i hi
      have : (t + 1) * w ≤ h * w := Nat.mul_le_mul_right _ (by omega)
      rw [Nat.add_mul, Nat.one_mul] at this
      rw [h1, hm, Nat.mul_comm w h]; omega
    obtain ⟨m2, a0, a1, a2⟩ := loop_inv (f := fun i m => swap m (t * w + i) (t * w + i)) (n := w) (s := m1)
      (P := fun (_ : Nat) (m' : Buf) => m'.size = m1.size ∧ ∀ q, m'.at_ q = m1.at_ q) ⟨rfl, fun _ => rfl⟩ (by
        rintro i hi m2 ⟨e1, e2⟩
        obtain ⟨m3, c0, c1, c2, c3, c4⟩ := swap_ok (m := m2) (a := t * w + i) (b := t * w + i) (by rw [e1]; exact hin i hi) (by rw [e1]; exact hin i hi)
        refine ⟨m3, c0, by omega, fun q => ?_⟩
        by_cases hq : q = t * w + i
        · rw [hq, c2]; exact e2 _
        · rw [c4 q hq hq]; exact e2 _)
    refine ⟨m2, a0, by omega, fun l hl i hi => ?_⟩
    rw [a2, h2 l hl i hi]
    by_cases hlt : l = t
    · subst hlt
      rw [if_neg (by omega), if_pos (by omega), ← hmid]
    · by_cases hc : l < t ∨ h - 1 - l < t
      · rw [if_pos hc, if_pos (by omega)]
      · rw [if_neg hc, if_neg (by omega)]
  · obtain ⟨m2, a0, a1, a2, a3⟩ := swapRows_ok (w := w) (y := h) (j := t) (k := h - 1 - t) (m := m1) (by omega) (by omega) (by omega)
    refine ⟨m2, a0, by omega, fun l hl i hi => ?_⟩
    by_cases hlt : l = t
    · subst hlt
      rw [(a2 i hi).1, h2 _ (by omega) i hi, if_neg (by omega), if_pos (by omega)]
    · by_cases hlk : l = h - 1 - t
      · subst hlk
        rw [(a2 i hi).2, h2 _ (by omega) i hi, if_neg (by omega), if_pos (by omega), show h - 1 - (h - 1 - t) = t by omega]
      · rw [a3 l hlt hlk i hi, h2 l hl i hi]
        by_cases hc : l < t ∨ h - 1 - l < t
        · rw [if_pos hc, if_pos (by omega)]
        · rw [if_neg hc, if_neg (by omega)]

/-- the channel that a channel of the picture comes from -/
def swapped (n c : Nat) : Nat := if 3 ≤ n then (if c = 0 then 2 else if c = 2 then 0 else c) else c

theorem tgaSwap_ok {n total : Nat} {m : Buf} (hn : 3 ≤ n) (hm : m.size = total * n) : ∃ m', tgaSwap n total m = .ok m' ∧ m'.size = m.size ∧
    ∀ i < total, ∀ c < n, m'.at_ (i * n + c) = m.at_ (i * n + swapped n c) := by
  have hlt : ∀ i < total, i * n + n ≤ m.size := fun i hi => by
    have : (i + 1) * n ≤ total * n := Nat.mul_le_mul_right _ hi
    rw [Nat.add_mul, Nat.one_mul] at this
    omega
  have := loop_inv (f := fun i m => swap m (i * n) (i * n + 2)) (n := total) (s := m) (P := fun (t : Nat) (m' : Buf) => m'.size = m.size ∧
    (∀ i < t, ∀ c < n, m'.at_ (i * n + c) = m.at_ (i * n + swapped n c)) ∧ ∀ q, t * n ≤ q → m'.at_ q = m.at_ q)
    ⟨rfl, fun i hi => absurd hi (by omega), fun _ _ => rfl⟩ ?_
  · obtain ⟨m', h0, h1, h2, _⟩ := this
    exact ⟨m', h0, h1, h2⟩
  rintro t ht m1 ⟨h1, h2, h3⟩
  have := hlt t ht
  obtain ⟨m2, a0, a1, a2, a3, a4⟩ := swap_ok (m := m1) (a := t * n) (b := t * n + 2) (by omega) (by omega)
  refine ⟨m2, a0, by omega, fun i hi c hc => ?_, fun q hq => ?_⟩
  · by_cases hit : i = t
    · subst hit
      rw [swapped, if_pos hn]
      by_cases h0 : c = 0
      · rw [if_pos h0, h0, Nat.add_zero, a2, h3 _ (by omega)]
      · rw [if_neg h0]
        by_cases h2' : c = 2
        · rw [if_pos h2', h2', a3, h3 _ (by omega)]; rfl
        · rw [if_neg h2', a4 _ (by omega) (by omega), h3 _ (by omega)]
    · have : (i + 1) * n ≤ t * n := Nat.mul_le_mul_right _ (by omega)
      rw [Nat.add_mul, Nat.one_mul] at this
      rw [a4 _ (by omega) (by omega)]
      exact h2 i (by omega) c hc
  · rw [Nat.add_mul, Nat.one_mul] at hq
    rw [a4 _ (by omega) (by omega)]
    exact h3 q (by omega)

end Verif.Png
