import Verif.Png.Tga
import Mathlib.Data.List.GetD

/-! # TGA pictures: pixels that are stored as they are, palettes, and all together -/

namespace Verif.Png

theorem getnAt_ok {file : List UInt8} {k k0 n : Nat} {s : Src} {m : Buf} (hs : s.all = file.drop k) (hm : k0 + n ≤ m.size) :
    ∃ m' s', getnAt m k0 n s = .ok (m', s') ∧ s'.all = file.drop (k + n) ∧ m'.size = m.size ∧
      (∀ j < n, m'.at_ (k0 + j) = if k + j < file.length then file[k + j]? else m.at_ (k0 + j)) ∧
      ∀ q, q < k0 ∨ k0 + n ≤ q → m'.at_ q = m.at_ q := by
  obtain ⟨buf, rest⟩ := s
  simp only [Src.all] at hs
  have hgot : (if buf.length < n then buf ++ rest.take (n - buf.length) else buf.take n) = (file.drop k).take n := by
    rw [← hs]
    by_cases h : buf.length < n
    · rw [if_pos h, List.take_append, List.take_of_length_le (l := buf) (by omega)]
    · rw [if_neg h, List.take_append_of_le_length (by omega)]
  have hleft : (if buf.length < n then (⟨[], rest.drop (n - buf.length)⟩ : Src) else ⟨buf.drop n, rest⟩).all = file.drop (k + n) := by
    rw [← List.drop_drop, ← hs]
    by_cases h : buf.length < n
    · rw [if_pos h, List.drop_append, List.drop_of_length_le (l := buf) (by omega)]; rfl
    · rw [if_neg h, List.drop_append_of_le_length (by omega)]; rfl
  have hlen : ((file.drop k).take n).length = min n (file.length - k) := by simp
  simp only [getnAt]
  rw [hgot, if_pos (by rw [hlen]; omega)]
  refine ⟨_, _, rfl, hleft, rfl, fun j hj => ?_, fun q hq => ?_⟩
  · simp only
    rw [hlen]
    by_cases h : k + j < file.length
    · rw [if_pos h, if_pos (by omega), Nat.add_sub_cancel_left, List.getElem?_take_of_lt hj, List.getElem?_drop]
    · rw [if_neg h, if_neg (by omega)]
  · simp only
    rw [hlen, if_neg (by omega)]

/-- rows that are stored as they are -/
theorem tgaDirect_ok {file : List UInt8} {k n : Nat} {t : Tga} {s : Src} (hs : s.all = file.drop k) :
    ∃ m, tgaDirect t n (fresh (t.w * t.h * n)) s = .ok m ∧ m.size = t.w * t.h * n ∧
      ∀ Y < t.h, ∀ j < t.w * n, m.at_ (Y * (t.w * n) + j) = file[k + (if t.inverted then t.h - 1 - Y else Y) * (t.w * n) + j]? := by
  have hsz : t.w * t.h * n = t.h * (t.w * n) := by ring
  have hfit : ∀ y < t.h, y * (t.w * n) + t.w * n ≤ t.w * t.h * n := fun y hy => by
    have : (y + 1) * (t.w * n) ≤ t.h * (t.w * n) := Nat.mul_le_mul_right _ hy
    rw [Nat.add_mul, Nat.one_mul] at this
    omega
  let row : Nat → Nat := fun i => if t.inverted then t.h - 1 - i else i
  have := loop_inv (f := fun i (q : Buf × Src) => getnAt q.1 ((if t.inverted then t.h - i - 1 else i) * t.w * n) (t.w * n) q.2) (n := t.h)
    (s := (fresh (t.w * t.h * n), s)) (P := fun (T : Nat) (q : Buf × Src) => q.1.size = t.w * t.h * n ∧ q.2.all = file.drop (k + T * (t.w * n)) ∧
      (∀ i < T, ∀ j < t.w * n, q.1.at_ (row i * (t.w * n) + j) = file[k + i * (t.w * n) + j]?) ∧
      ∀ i < t.h, T ≤ i → ∀ j < t.w * n, q.1.at_ (row i * (t.w * n) + j) = none)
    ⟨rfl, by simpa using hs, fun i hi => absurd hi (by omega), fun i _ _ j _ => rfl⟩ ?_
  · obtain ⟨q, h0, h1, _, h3, _⟩ := this
    refine ⟨q.1, by rw [tgaDirect, h0]; rfl, h1, fun Y hY j hj => ?_⟩
    have hr : row (row Y) = Y := by
      simp only [row]
      split <;> omega
    have hlt : row Y < t.h := by
      simp only [row]
      split <;> omega
    have := h3 (row Y) hlt j hj
    rw [hr] at this
    exact this
  rintro T hT ⟨m, s1⟩ ⟨h1, h2, h3, h4⟩
  simp only at h1 h2 h3 h4
  have hrow : ∀ i < t.h, row i < t.h := fun i hi => by
    simp only [row]
    split <;> omega
  have hplace : (if t.inverted then t.h - T - 1 else T) * t.w * n = row T * (t.w * n) := by
    simp only [row]
    rw [Nat.mul_assoc]
    split
    · rw [show t.h - T - 1 = t.h - 1 - T by omega]
    · rfl
  have hother : ∀ i < t.h, i ≠ T → ∀ j < t.w * n, row i * (t.w * n) + j < row T * (t.w * n) ∨ row T * (t.w * n) + t.w * n ≤ row i * (t.w * n) + j := by
    intro i hi hne j hj
    have hd : row i ≠ row T := by
      simp only [row]
      split <;> omega
    rcases Nat.lt_or_gt_of_ne hd with h | h
    · have : (row i + 1) * (t.w * n) ≤ row T * (t.w * n) := Nat.mul_le_mul_right _ h
      rw [Nat.add_mul, Nat.one_mul] at this
      left; omega
    · have : (row T + 1) * (t.w * n) ≤ row i * (t.w * n) := Nat.mul_le_mul_right _ h
      rw [Nat.add_mul, Nat.one_mul] at this
      right; omega
  obtain ⟨m', s', a0, a1, a2, a3, a4⟩ := getnAt_ok (k0 := row T * (t.w * n)) (n := t.w * n) h2 (by rw [h1]; exact hfit _ (hrow T hT))
  refine ⟨(m', s'), by simp only; rw [hplace]; exact a0, by simp only; omega, ?_, fun i hi j hj => ?_, fun i hi hTi j hj => ?_⟩
  · simp only
    rw [a1, Nat.add_mul, Nat.one_mul, Nat.add_assoc]
  · simp only
    by_cases hiT : i = T
    · subst hiT
      rw [a3 j hj]
      by_cases hl : k + i * (t.w * n) + j < file.length
      · rw [if_pos hl]
      · rw [if_neg hl, h4 i hT (le_refl _) j hj, List.getElem?_eq_none (by omega)]
    · rw [a4 _ (hother i (by omega) hiT j hj)]
      exact h3 i (by omega) j hj
  · simp only
    rw [a4 _ (hother i hi (by omega) j hj)]
    exact h4 i hi (by omega) j hj

/-! ## pixels -/

/-- a pixel as it is read -/
def rawAt (rgb16 : Bool) (n : Nat) (file : List UInt8) (k : Nat) : List UInt8 :=
  if rgb16 then [UInt8.ofNat (le16 file k / 2 ^ 10 % 32 * 255 / 31), UInt8.ofNat (le16 file k / 2 ^ 5 % 32 * 255 / 31), UInt8.ofNat (le16 file k % 32 * 255 / 31)]
  else (List.range n).map fun j => byteAt file (k + j)

theorem tgaRgb16_drop {file : List UInt8} {k : Nat} {s : Src} (h : s.all = file.drop k) (n : Nat) :
    (tgaRgb16 s).1 = rawAt true n file k ∧ (tgaRgb16 s).2.all = file.drop (k + 2) := by
  have := getLe16_drop h
  refine ⟨?_, this.2⟩
  simp only [tgaRgb16, rawAt, if_true]
  rw [this.1]

theorem tgaBytes_drop {file : List UInt8} : ∀ {n k : Nat} {s : Src}, s.all = file.drop k →
    (tgaBytes n s).1 = rawAt false n file k ∧ (tgaBytes n s).2.all = file.drop (k + n)
  | 0, k, s, h => ⟨rfl, h⟩
  | n + 1, k, s, h => by
    have h1 := get8_drop h
    have h2 := tgaBytes_drop (n := n) h1.2
    simp only [tgaBytes]
    refine ⟨?_, by rw [h2.2, Nat.add_assoc, Nat.add_comm 1]⟩
    rw [h2.1, h1.1]
    simp only [rawAt, Bool.false_eq_true, if_false]
    rw [List.range_succ_eq_map, List.map_cons, List.map_map]
    simp only [Nat.add_zero, List.cons.injEq, true_and]
    refine List.map_congr_left fun i _ => ?_
    simp only [Function.comp]
    rw [show k + 1 + i = k + i.succ by omega]

/-- pixels without a palette -/
theorem reads_plain {file : List UInt8} {t : Tga} {n : Nat} {rgb16 : Bool} {pal : List UInt8} (ht : t.indexed = false) :
    Reads file (if rgb16 then 2 else n) (rawAt rgb16 n file) (tgaPixel t n rgb16 pal) := by
  intro k s hs
  rw [tgaPixel, if_neg (by rw [ht]; decide)]
  cases rgb16 with
  | true =>
    have := tgaRgb16_drop hs n
    exact ⟨_, by rw [if_pos rfl, ← this.1], by rw [if_pos rfl]; exact this.2⟩
  | false =>
    have := tgaBytes_drop (n := n) hs
    exact ⟨_, by rw [if_neg (by decide), ← this.1], by rw [if_neg (by decide)]; exact this.2⟩

theorem palBytes_ok {pal : List UInt8} : ∀ {n k : Nat}, k + n ≤ pal.length → palBytes pal k n = .ok ((List.range n).map fun j => pal.getD (k + j) 0)
  | 0, _, _ => rfl
  | n + 1, k, h => by
    have hg : get pal k = .ok (pal.getD k 0) := get_ok (by rw [List.getD_eq_getElem?_getD, List.getElem?_eq_getElem (by omega)]; rfl)
    rw [palBytes, hg, Outcome.bind_ok, palBytes_ok (by omega), Outcome.bind_ok, List.range_succ_eq_map, List.map_cons, List.map_map]
    simp only [Nat.add_zero, Outcome.ok.injEq, List.cons.injEq, true_and]
    refine List.map_congr_left fun i _ => ?_
    simp only [Function.comp]
    rw [show k + 1 + i = k + i.succ by omega]

/-- the index of a pixel -/
def idxAt (bpp len : Nat) (file : List UInt8) (k : Nat) : Nat :=
  let v := if bpp = 8 then (byteAt file k).toNat else le16 file k
  if len ≤ v then 0 else v

/-- pixels by a palette -/
theorem reads_pal {file : List UInt8} {t : Tga} {n : Nat} {rgb16 : Bool} {pal : List UInt8} (ht : t.indexed = true) (hp : pal.length = t.palLen * n)
    (h0 : 0 < t.palLen) :
    Reads file (if t.bpp = 8 then 1 else 2) (fun k => (List.range n).map fun j => pal.getD (idxAt t.bpp t.palLen file k * n + j) 0) (tgaPixel t n rgb16 pal) := by
  intro k s hs
  rw [tgaPixel, if_pos ht]
  have key : ∀ v : Nat, (if t.palLen ≤ v then 0 else v) * n + n ≤ pal.length := fun v => by
    rw [hp, ← Nat.succ_mul]
    refine Nat.mul_le_mul_right _ ?_
    split <;> omega
  by_cases hb : t.bpp = 8
  · have h1 := get8_drop hs
    simp only [hb, if_true, idxAt]
    rw [h1.1, palBytes_ok (key _), Outcome.bind_ok]
    exact ⟨_, rfl, h1.2⟩
  · have h1 := getLe16_drop hs
    simp only [if_neg hb, idxAt]
    rw [h1.1, palBytes_ok (key _), Outcome.bind_ok]
    exact ⟨_, rfl, h1.2⟩

theorem tgaPal16_ok {file : List UInt8} : ∀ {len k : Nat} {s : Src}, s.all = file.drop k → (tgaPal16 len s).1.length = len * 3 ∧
    (tgaPal16 len s).2.all = file.drop (k + len * 2) ∧
    ∀ i < len, ∀ j < 3, (tgaPal16 len s).1.getD (i * 3 + j) 0 = (rawAt true 3 file (k + i * 2)).getD j 0
  | 0, k, s, h => ⟨rfl, h, fun i hi => absurd hi (by omega)⟩
  | len + 1, k, s, h => by
    have h1 := tgaRgb16_drop h 3
    obtain ⟨a1, a2, a3⟩ := tgaPal16_ok (len := len) h1.2
    have hl : (tgaRgb16 s).1.length = 3 := by rw [h1.1]; rfl
    simp only [tgaPal16]
    refine ⟨by rw [List.length_append, hl, a1]; omega, by rw [a2]; congr 1; omega, fun i hi j hj => ?_⟩
    cases i with
    | zero =>
      rw [List.getD_append _ _ _ _ (by omega), h1.1]
      simp
    | succ i =>
      rw [List.getD_append_right _ _ _ _ (by omega), hl, show (i + 1) * 3 + j - 3 = i * 3 + j by omega, a3 i (by omega) j hj]
      rw [show k + 2 + i * 2 = k + (i + 1) * 2 by omega]

theorem getn_none {s : Src} {n : Nat} (h : s.all.length < n) : getn s n = none := by
  obtain ⟨buf, rest⟩ := s
  simp only [Src.all, List.length_append] at h
  simp only [getn]
  rw [if_pos (by omega), if_neg (by rw [List.length_take]; omega)]

/-- the palette -/
theorem tgaPalette_ok {file : List UInt8} {room k n : Nat} {t : Tga} {rgb16 : Bool} {s : Src} (hs : s.all = file.drop k) (hst : t.palStart < 2 ^ 31)
    (hroom : t.palLen * n ≤ room) (hn : rgb16 = true → n = 3) (hf : rgb16 = false → k + t.palStart + t.palLen * n ≤ file.length) :
    ∃ pal s', tgaPalette room t n rgb16 s = .ok (pal, s') ∧ pal.length = t.palLen * n ∧
      s'.all = file.drop (k + t.palStart + t.palLen * (if rgb16 then 2 else n)) ∧
      ∀ i < t.palLen, ∀ j < n, pal.getD (i * n + j) 0 = (rawAt rgb16 n file (k + t.palStart + i * (if rgb16 then 2 else n))).getD j 0 := by
  have hk : (skip s t.palStart).all = file.drop (k + t.palStart) := by
    rw [skip_drop hst, hs, List.drop_drop]
  simp only [tgaPalette]
  rw [if_neg (by omega)]
  cases rgb16 with
  | true =>
    have h3 := hn rfl
    subst h3
    obtain ⟨a1, a2, a3⟩ := tgaPal16_ok (len := t.palLen) hk
    rw [if_pos rfl]
    exact ⟨_, _, rfl, a1, a2, a3⟩
  | false =>
    have hlen := hf rfl
    rw [if_neg (by decide)]
    have hd : (skip s t.palStart).all = (file.drop (k + t.palStart)).take (t.palLen * n) ++ (file.drop (k + t.palStart)).drop (t.palLen * n) := by
      rw [List.take_append_drop, hk]
    obtain ⟨s', b1, b2⟩ := getn_all hd
    have hl : ((file.drop (k + t.palStart)).take (t.palLen * n)).length = t.palLen * n := by simp; omega
    rw [hl] at b1
    rw [b1]
    refine ⟨_, _, rfl, hl, by rw [b2, List.drop_drop]; rfl, fun i hi j hj => ?_⟩
    have hij : i * n + j < t.palLen * n := by
      have : (i + 1) * n ≤ t.palLen * n := Nat.mul_le_mul_right _ hi
      rw [Nat.add_mul, Nat.one_mul] at this
      omega
    simp only [rawAt, Bool.false_eq_true, if_false]
    rw [List.getD_eq_getElem?_getD, List.getD_eq_getElem?_getD, List.getElem?_take_of_lt hij, List.getElem?_drop, List.getElem?_map, List.getElem?_range hj]
    simp only [Option.map_some, Option.getD_some, byteAt, List.getD_eq_getElem?_getD, Nat.add_assoc]

/-! ## all pixels -/

/-- the places of the pixels, `b` bytes each, that begin at `k` -/
def Places (file : List UInt8) (b : Nat) (rle : Bool) (k : Nat) (ps : List Nat) : Prop :=
  if rle then Packets file b k ps else ∃ m, ps = (List.range m).map fun i => k + i * b

theorem places_long (file : List UInt8) (b : Nat) (rle : Bool) (k N : Nat) : ∃ ps, Places file b rle k ps ∧ N ≤ ps.length := by
  cases rle with
  | true => simpa [Places] using packets_long file b N k
  | false => exact ⟨(List.range N).map fun i => k + i * b, by rw [Places, if_neg (by decide)]; exact ⟨N, rfl⟩, by simp⟩

theorem coded_ok {file : List UInt8} {b k n : Nat} {px : Nat → List UInt8} {t : Tga} {rgb16 : Bool} {pal : List UInt8} {s : Src} {ps : List Nat}
    (hpx : Reads file b px (tgaPixel t n rgb16 pal)) (hs : s.all = file.drop k) (hpl : Places file b t.rle k ps) (hN : t.w * t.h ≤ ps.length) :
    ∃ m, (loop (t.w * t.h) (tgaStep t n rgb16 pal) ⟨fresh (t.w * t.h * n), s, 0, false, true, []⟩ >>= fun p =>
        if t.inverted then tgaFlip (t.w * n) t.h p.out else .ok p.out) = .ok m ∧ m.size = t.w * t.h * n ∧
      ∀ Y < t.h, ∀ X < t.w, ∀ c < n, m.at_ ((Y * t.w + X) * n + c) =
        some ((px (ps.getD ((if t.inverted then t.h - 1 - Y else Y) * t.w + X) 0)).getD c 0) := by
  have hready : Ready file b px t.rle ⟨fresh (t.w * t.h * n), s, 0, false, true, []⟩ ps := by
    rw [Ready]
    rw [Places] at hpl
    by_cases hr : t.rle = true
    · rw [if_pos hr] at hpl ⊢
      exact .inl ⟨rfl, k, hs, hpl⟩
    · rw [if_neg hr] at hpl ⊢
      obtain ⟨m, hm⟩ := hpl
      exact ⟨k, m, hs, hm⟩
  obtain ⟨p, a1, a2, a3⟩ := steps_ok hpx hready hN rfl
  rw [a1, Outcome.bind_ok]
  have hin : ∀ Y < t.h, ∀ X < t.w, Y * t.w + X < t.w * t.h := fun Y hY X hX => by
    have : (Y + 1) * t.w ≤ t.h * t.w := Nat.mul_le_mul_right _ hY
    rw [Nat.add_mul, Nat.one_mul, Nat.mul_comm t.h] at this
    omega
  by_cases hi : t.inverted = true
  · rw [if_pos hi]
    obtain ⟨m, b1, b2, b3⟩ := tgaFlip_ok (w := t.w * n) (h := t.h) (m := p.out) (by rw [a2]; ring)
    refine ⟨m, b1, by omega, fun Y hY X hX c hc => ?_⟩
    have hXc : X * n + c < t.w * n := by
      have : (X + 1) * n ≤ t.w * n := Nat.mul_le_mul_right _ hX
      rw [Nat.add_mul, Nat.one_mul] at this
      omega
    have := b3 Y hY (X * n + c) hXc
    rw [show (Y * t.w + X) * n + c = Y * (t.w * n) + (X * n + c) by ring, this, if_pos hi]
    rw [show (t.h - 1 - Y) * (t.w * n) + (X * n + c) = ((t.h - 1 - Y) * t.w + X) * n + c by ring]
    exact a3 _ (hin _ (by omega) X hX) c hc
  · rw [if_neg hi]
    refine ⟨p.out, rfl, a2, fun Y hY X hX c hc => ?_⟩
    rw [if_neg hi]
    exact a3 _ (hin Y hY X hX) c hc

end Verif.Png
