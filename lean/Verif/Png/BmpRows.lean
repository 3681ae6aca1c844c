import Verif.Png.Bmp

/-! # The rows of a BMP file -/

namespace Verif.Png

theorem get8_drop {file : List UInt8} {k : Nat} {s : Src} (h : s.all = file.drop k) :
    (get8 s).1 = byteAt file k ∧ (get8 s).2.all = file.drop (k + 1) := by
  by_cases hk : k < file.length
  · have hd : file.drop k = file[k] :: file.drop (k + 1) := List.drop_eq_getElem_cons hk
    have hg := get8_all (h.trans hd)
    refine ⟨?_, hg.2⟩
    rw [hg.1, byteAt, List.getD_eq_getElem?_getD, List.getElem?_eq_getElem hk]; rfl
  · rw [List.drop_eq_nil_of_le (by omega)] at h
    rw [get8_end h, List.drop_eq_nil_of_le (by omega)]
    refine ⟨?_, h⟩
    rw [byteAt, List.getD_eq_getElem?_getD, List.getElem?_eq_none (by omega)]; rfl

theorem skip_drop {s : Src} {n : Nat} (hn : n < 2 ^ 31) : (skip s n).all = s.all.drop n := by
  obtain ⟨buf, rest⟩ := s
  rw [skip, if_neg (by omega)]
  split
  · rename_i hlt
    simp only at hlt
    simp only [Src.all, List.nil_append]
    rw [List.drop_append, List.drop_eq_nil_of_le (as := buf) (by omega), List.nil_append]
  · rename_i hlt
    simp only at hlt
    simp only [Src.all]
    rw [List.drop_append_of_le_length (by omega)]

/-- a channel of the pixel whose bytes begin at `k` -/
def pixelAt (four : Bool) (file : List UInt8) (k c : Nat) : UInt8 :=
  if c = 3 then (if four then byteAt file (k + 3) else 255) else byteAt file (k + (2 - c))

theorem or_zero_iff (a b : Nat) : a ||| b = 0 ↔ a = 0 ∧ b = 0 := by
  constructor
  · intro h
    have h1 := Nat.left_le_or (n := a) (m := b)
    have h2 := Nat.right_le_or (n := a) (m := b)
    omega
  · rintro ⟨rfl, rfl⟩; rfl

theorem easyPixel_ok {four wide : Bool} {file : List UInt8} {k : Nat} {p : Px} (hs : p.s.all = file.drop k)
    (hz : p.z + (if wide then 4 else 3) ≤ p.out.size) : ∃ p', easyPixel four wide p = .ok p' ∧ p'.z = p.z + (if wide then 4 else 3) ∧
      p'.s.all = file.drop (k + if four then 4 else 3) ∧ p'.out.size = p.out.size ∧
      (∀ c < (if wide then 4 else 3), p'.out.at_ (p.z + c) = some (pixelAt four file k c)) ∧
      (∀ q < p.z, p'.out.at_ q = p.out.at_ q) ∧ (p'.allA = 0 ↔ p.allA = 0 ∧ pixelAt four file k 3 = 0) := by
  have hz3 : p.z + 3 ≤ p.out.size := by split at hz <;> omega
  have h1 := get8_drop hs
  have h2 := get8_drop h1.2
  have h3 := get8_drop h2.2
  have h4 := get8_drop h3.2
  obtain ⟨m1, a1, a2, a3, a4⟩ := store_ok (m := p.out) (i := p.z + 2) (byteAt file k) (by omega)
  obtain ⟨m2, b1, b2, b3, b4⟩ := store_ok (m := m1) (i := p.z + 1) (byteAt file (k + 1)) (by omega)
  obtain ⟨m3, c1, c2, c3, c4⟩ := store_ok (m := m2) (i := p.z) (byteAt file (k + 1 + 1)) (by omega)
  have e0 : m3.at_ (p.z + 0) = some (pixelAt four file k 0) := by rw [Nat.add_zero, c3]; rfl
  have e1 : m3.at_ (p.z + 1) = some (pixelAt four file k 1) := by rw [c4 _ (by omega), b3]; rfl
  have e2 : m3.at_ (p.z + 2) = some (pixelAt four file k 2) := by rw [c4 _ (by omega), b4 _ (by omega), a3]; rfl
  have e3 : ∀ q < p.z, m3.at_ q = p.out.at_ q := fun q hq => by rw [c4 _ (by omega), b4 _ (by omega), a4 _ (by omega)]
  have ha : ∀ a : UInt8, a = pixelAt four file k 3 → (p.allA ||| a.toNat = 0 ↔ p.allA = 0 ∧ pixelAt four file k 3 = 0) := by
    rintro a rfl
    rw [or_zero_iff]
    refine and_congr_right fun _ => ?_
    rw [← UInt8.toNat_inj]; rfl
  rw [easyPixel]
  simp only [h1.1, a1, Outcome.bind_ok, h2.1, b1, h3.1, c1]
  have hp : ((if four = true then get8 (get8 (get8 (get8 p.s).2).2).2 else (255, (get8 (get8 (get8 p.s).2).2).2)) : UInt8 × Src).1 = pixelAt four file k 3 := by
    cases four with
    | true => simp only [if_true]; rw [h4.1]; rfl
    | false => rfl
  have hq : ((if four = true then get8 (get8 (get8 (get8 p.s).2).2).2 else (255, (get8 (get8 (get8 p.s).2).2).2)) : UInt8 × Src).2.all =
      file.drop (k + if four then 4 else 3) := by
    cases four with
    | true => exact h4.2
    | false => exact h3.2
  generalize (if four = true then get8 (get8 (get8 (get8 p.s).2).2).2 else (255, (get8 (get8 (get8 p.s).2).2).2) : UInt8 × Src) = as at hp hq ⊢
  obtain ⟨a, s⟩ := as
  simp only at hp hq ⊢
  cases wide with
  | false =>
    simp only [Bool.false_eq_true, if_false]
    refine ⟨_, rfl, rfl, hq, by simp only; omega, fun c hc => ?_, e3, ha a hp⟩
    simp only
    rcases (by omega : c = 0 ∨ c = 1 ∨ c = 2) with rfl | rfl | rfl
    · exact e0
    · exact e1
    · exact e2
  | true =>
    simp only [if_true] at hz ⊢
    obtain ⟨m4, d1, d2, d3, d4⟩ := store_ok (m := m3) (i := p.z + 3) a (by omega)
    rw [d1, Outcome.bind_ok]
    refine ⟨_, rfl, rfl, hq, by simp only; omega, fun c hc => ?_, fun q hq => by simp only; rw [d4 _ (by omega), e3 q hq], ha a hp⟩
    simp only
    rcases (by omega : c = 0 ∨ c = 1 ∨ c = 2 ∨ c = 3) with rfl | rfl | rfl | rfl
    · rw [d4 _ (by omega)]; exact e0
    · rw [d4 _ (by omega)]; exact e1
    · rw [d4 _ (by omega)]; exact e2
    · rw [d3, hp]

theorem easyRow_ok {four wide : Bool} {file : List UInt8} {n b w k : Nat} (hn : n = if wide then 4 else 3) (hb : b = if four then 4 else 3)
    {p : Px} (hs : p.s.all = file.drop k) (hz : p.z + n * w ≤ p.out.size) : ∃ p', loop w (fun _ => easyPixel four wide) p = .ok p' ∧
      p'.z = p.z + n * w ∧ p'.s.all = file.drop (k + b * w) ∧ p'.out.size = p.out.size ∧
      (∀ i < w, ∀ c < n, p'.out.at_ (p.z + n * i + c) = some (pixelAt four file (k + b * i) c)) ∧
      (∀ q < p.z, p'.out.at_ q = p.out.at_ q) ∧ (p'.allA = 0 ↔ p.allA = 0 ∧ ∀ i < w, pixelAt four file (k + b * i) 3 = 0) := by
  refine loop_inv (P := fun (t : Nat) (p' : Px) => p'.z = p.z + n * t ∧ p'.s.all = file.drop (k + b * t) ∧ p'.out.size = p.out.size ∧
      (∀ i < t, ∀ c < n, p'.out.at_ (p.z + n * i + c) = some (pixelAt four file (k + b * i) c)) ∧
      (∀ q < p.z, p'.out.at_ q = p.out.at_ q) ∧ (p'.allA = 0 ↔ p.allA = 0 ∧ ∀ i < t, pixelAt four file (k + b * i) 3 = 0))
    ⟨rfl, hs, rfl, fun i hi => absurd hi (by omega), fun _ _ => rfl, by simp⟩ ?_
  rintro t ht p1 ⟨h1, h2, h3, h4, h5, h6⟩
  have hle : n * (t + 1) ≤ n * w := Nat.mul_le_mul_left n ht
  obtain ⟨p2, g0, g1, g2, g3, g4, g5, g6⟩ := easyPixel_ok (four := four) (wide := wide) h2 (by rw [← hn, h1, h3]; rw [Nat.mul_add] at hle; omega)
  rw [← hn] at g1 g4
  rw [← hb] at g2
  refine ⟨p2, g0, by rw [g1, h1]; ring, by rw [g2]; congr 1; ring, by omega, fun i hi c hc => ?_, fun q hq => ?_, ?_⟩
  · by_cases hit : i = t
    · subst hit
      rw [← h1]; exact g4 c hc
    · have : n * (i + 1) ≤ n * t := Nat.mul_le_mul_left n (by omega)
      rw [Nat.mul_add] at this
      rw [g5 _ (by omega)]
      exact h4 i (by omega) c hc
  · rw [g5 _ (by omega)]; exact h5 q hq
  · rw [g6, h6, and_assoc]
    refine and_congr_right fun _ => ⟨fun ⟨a, e⟩ i hi => ?_, fun a => ⟨fun i hi => a i (by omega), a t (by omega)⟩⟩
    by_cases hit : i = t
    · rw [hit]; exact e
    · exact a i (by omega)

theorem easyRows_ok {four wide : Bool} {file : List UInt8} {n b w y k pad : Nat} (hn : n = if wide then 4 else 3) (hb : b = if four then 4 else 3)
    (hpad : pad < 2 ^ 31) {p : Px} (hz : p.z = 0) (hs : p.s.all = file.drop k) (hsz : p.out.size = n * w * y) :
    ∃ p', bmpRows (loop w fun _ => easyPixel four wide) pad y p = .ok p' ∧ p'.out.size = n * w * y ∧
      (∀ j < y, ∀ i < w, ∀ c < n, p'.out.at_ (n * w * j + n * i + c) = some (pixelAt four file (k + (b * w + pad) * j + b * i) c)) ∧
      (p'.allA = 0 ↔ p.allA = 0 ∧ ∀ j < y, ∀ i < w, pixelAt four file (k + (b * w + pad) * j + b * i) 3 = 0) := by
  have := loop_inv (f := fun _ p => loop w (fun _ => easyPixel four wide) p >>= fun p => .ok { p with s := skip p.s pad }) (n := y) (s := p)
    (P := fun (t : Nat) (p' : Px) => p'.z = n * w * t ∧ p'.s.all = file.drop (k + (b * w + pad) * t) ∧ p'.out.size = n * w * y ∧
      (∀ j < t, ∀ i < w, ∀ c < n, p'.out.at_ (n * w * j + n * i + c) = some (pixelAt four file (k + (b * w + pad) * j + b * i) c)) ∧
      (p'.allA = 0 ↔ p.allA = 0 ∧ ∀ j < t, ∀ i < w, pixelAt four file (k + (b * w + pad) * j + b * i) 3 = 0))
    ⟨by omega, by simpa using hs, hsz, fun j hj => absurd hj (by omega), by simp⟩ ?_
  · obtain ⟨p', h0, _, _, h3, h4, h5⟩ := this
    exact ⟨p', h0, h3, h4, h5⟩
  rintro t ht p1 ⟨h1, h2, h3, h4, h5⟩
  have hle : n * w * (t + 1) ≤ n * w * y := Nat.mul_le_mul_left _ ht
  rw [Nat.mul_add, Nat.mul_one] at hle
  obtain ⟨p2, g0, g1, g2, g3, g4, g5, g6⟩ := easyRow_ok (four := four) (wide := wide) (w := w) hn hb h2 (by rw [h1, h3]; omega)
  refine ⟨_, by rw [g0, Outcome.bind_ok], by simp only; rw [g1, h1]; ring, ?_, by simp only; omega, fun j hj i hi c hc => ?_, ?_⟩
  · simp only
    rw [skip_drop hpad, g2, List.drop_drop]
    congr 1; ring
  · simp only
    by_cases hjt : j = t
    · subst hjt
      rw [← h1]; exact g4 i hi c hc
    · have h7 : n * w * (j + 1) ≤ n * w * t := Nat.mul_le_mul_left _ (by omega)
      have h8 : n * (i + 1) ≤ n * w := Nat.mul_le_mul_left _ hi
      rw [Nat.mul_add] at h7 h8
      rw [g5 _ (by omega)]
      exact h4 j (by omega) i hi c hc
  · simp only
    rw [g6, h5, and_assoc]
    refine and_congr_right fun _ => ⟨fun ⟨a, e⟩ j hj => ?_, fun a => ⟨fun j hj => a j (by omega), a t (by omega)⟩⟩
    by_cases hjt : j = t
    · rw [hjt]; exact e
    · exact a j (by omega)

theorem opaqueRows_ok {n : Nat} {m : Buf} (hm : m.size = 4 * n) : ∃ m', opaqueRows n m = .ok m' ∧ m'.size = m.size ∧
    (∀ i < n, m'.at_ (4 * i + 3) = some 255) ∧ ∀ i c, c < 3 → m'.at_ (4 * i + c) = m.at_ (4 * i + c) := by
  refine loop_inv (P := fun (t : Nat) (m' : Buf) => m'.size = m.size ∧ (∀ i < t, m'.at_ (4 * i + 3) = some 255) ∧
    ∀ i c, c < 3 → m'.at_ (4 * i + c) = m.at_ (4 * i + c)) ⟨rfl, fun i hi => absurd hi (by omega), fun _ _ _ => rfl⟩ ?_
  rintro t ht m1 ⟨h1, h2, h3⟩
  obtain ⟨m2, a1, a2, a3, a4⟩ := store_ok (m := m1) (i := 4 * t + 3) 255 (by omega)
  refine ⟨m2, a1, by omega, fun i hi => ?_, fun i c hc => by rw [a4 _ (by omega)]; exact h3 i c hc⟩
  by_cases hit : i = t
  · rw [hit]; exact a3
  · rw [a4 _ (by omega)]; exact h2 i (by omega)

theorem swap_ok {m : Buf} {a b : Nat} (ha : a < m.size) (hb : b < m.size) : ∃ m', swap m a b = .ok m' ∧ m'.size = m.size ∧
    m'.at_ a = m.at_ b ∧ m'.at_ b = m.at_ a ∧ ∀ q, q ≠ a → q ≠ b → m'.at_ q = m.at_ q := by
  rw [swap, if_pos ⟨ha, hb⟩]
  refine ⟨_, rfl, rfl, by simp, ?_, fun q h1 h2 => by simp [h1, h2]⟩
  by_cases h : b = a
  · simp [h]
  · simp [h]

/-- two rows change places -/
theorem swapRows_ok {w y j k : Nat} {m : Buf} (hm : m.size = w * y) (hj : j < k) (hk : k < y) :
    ∃ m', loop w (fun i m => swap m (j * w + i) (k * w + i)) m = .ok m' ∧ m'.size = m.size ∧
      (∀ i < w, m'.at_ (j * w + i) = m.at_ (k * w + i) ∧ m'.at_ (k * w + i) = m.at_ (j * w + i)) ∧
      ∀ l, l ≠ j → l ≠ k → ∀ i < w, m'.at_ (l * w + i) = m.at_ (l * w + i) := by
  have hrow : ∀ a b i i' : Nat, i < w → i' < w → a * w + i = b * w + i' → a = b ∧ i = i' := by
    intro a b i i' hi hi' h
    have h1 : (a * w + i) / w = (b * w + i') / w := by rw [h]
    rw [Nat.add_comm, Nat.add_mul_div_right _ _ (by omega), Nat.add_comm (b * w), Nat.add_mul_div_right _ _ (by omega),
      Nat.div_eq_of_lt hi, Nat.div_eq_of_lt hi'] at h1
    have : a = b := by omega
    subst this
    omega
  have hin : ∀ l < y, ∀ i < w, l * w + i < m.size := by
    intro l hl i hi
    have h1 : (l + 1) * w ≤ y * w := Nat.mul_le_mul_right w hl
    rw [Nat.add_mul, Nat.one_mul] at h1
    rw [hm, Nat.mul_comm w y]
    omega
  have := loop_inv (f := fun i m => swap m (j * w + i) (k * w + i)) (n := w) (s := m) (P := fun (t : Nat) (m' : Buf) => m'.size = m.size ∧
      (∀ i < t, m'.at_ (j * w + i) = m.at_ (k * w + i) ∧ m'.at_ (k * w + i) = m.at_ (j * w + i)) ∧
      (∀ i < w, t ≤ i → m'.at_ (j * w + i) = m.at_ (j * w + i) ∧ m'.at_ (k * w + i) = m.at_ (k * w + i)) ∧
      ∀ l, l ≠ j → l ≠ k → ∀ i < w, m'.at_ (l * w + i) = m.at_ (l * w + i))
    ⟨rfl, fun i hi => absurd hi (by omega), fun _ _ _ => ⟨rfl, rfl⟩, fun _ _ _ _ _ => rfl⟩ ?_
  · obtain ⟨m', h0, h1, h2, _, h4⟩ := this
    exact ⟨m', h0, h1, h2, h4⟩
  rintro t ht m1 ⟨h1, h2, h3, h4⟩
  obtain ⟨m2, a0, a1, a2, a3, a4⟩ := swap_ok (m := m1) (a := j * w + t) (b := k * w + t) (by rw [h1]; exact hin j (by omega) t ht)
    (by rw [h1]; exact hin k hk t ht)
  have hother : ∀ l i, i < w → ((l ≠ j ∧ l ≠ k) ∨ i ≠ t) → m2.at_ (l * w + i) = m1.at_ (l * w + i) := by
    intro l i hi h
    refine a4 _ (fun h' => ?_) (fun h' => ?_)
    · have := hrow _ _ _ _ hi ht h'; omega
    · have := hrow _ _ _ _ hi ht h'; omega
  refine ⟨m2, a0, by omega, fun i hi => ?_, fun i hi hti => ?_, fun l hl1 hl2 i hi => ?_⟩
  · by_cases hit : i = t
    · subst hit
      rw [a2, a3]
      exact ⟨(h3 i ht (Nat.le_refl i)).2, (h3 i ht (Nat.le_refl i)).1⟩
    · rw [hother j i (by omega) (Or.inr hit), hother k i (by omega) (Or.inr hit)]
      exact h2 i (by omega)
  · rw [hother j i hi (Or.inr (by omega)), hother k i hi (Or.inr (by omega))]
    exact h3 i hi (by omega)
  · rw [hother l i hi (Or.inl ⟨hl1, hl2⟩)]
    exact h4 l hl1 hl2 i hi

theorem flipRows_ok {w y : Nat} {m : Buf} (hm : m.size = w * y) : ∃ m', flipRows w y m = .ok m' ∧ m'.size = m.size ∧
    ∀ l < y, ∀ i < w, m'.at_ (l * w + i) = m.at_ ((y - 1 - l) * w + i) := by
  have := loop_inv (f := fun j m => loop w (fun i m => swap m (j * w + i) ((y - 1 - j) * w + i)) m) (n := y / 2) (s := m)
    (P := fun (t : Nat) (m' : Buf) => m'.size = m.size ∧ ∀ l < y, ∀ i < w, m'.at_ (l * w + i) =
      if l < t ∨ y - 1 - l < t then m.at_ ((y - 1 - l) * w + i) else m.at_ (l * w + i)) ⟨rfl, fun l hl i hi => by rw [if_neg (by omega)]⟩ ?_
  · obtain ⟨m', h0, h1, h2⟩ := this
    refine ⟨m', h0, h1, fun l hl i hi => ?_⟩
    rw [h2 l hl i hi]
    split
    · rfl
    · rw [show y - 1 - l = l by omega]
  rintro t ht m1 ⟨h1, h2⟩
  obtain ⟨m2, a0, a1, a2, a3⟩ := swapRows_ok (w := w) (y := y) (j := t) (k := y - 1 - t) (m := m1) (by omega) (by omega) (by omega)
  refine ⟨m2, a0, by omega, fun l hl i hi => ?_⟩
  by_cases hlt : l = t
  · subst hlt
    rw [(a2 i hi).1, h2 _ (by omega) i hi, if_neg (by omega), if_pos (by omega)]
  · by_cases hlk : l = y - 1 - t
    · subst hlk
      rw [(a2 i hi).2, h2 _ (by omega) i hi, if_neg (by omega), if_pos (by omega), show y - 1 - (y - 1 - t) = t by omega]
    · rw [a3 l hlt hlk i hi, h2 l hl i hi]
      by_cases hc : l < t ∨ y - 1 - l < t
      · rw [if_pos hc, if_pos (by omega)]
      · rw [if_neg hc, if_neg (by omega)]

end Verif.Png
