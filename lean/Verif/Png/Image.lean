import Verif.Png.Samples

/-! # The picture from the filtered scanlines -/

namespace Verif.Png

theorem lineBytes_mul {n x d : Nat} (h : d = 8 ∨ d = 16) : lineBytes n x d = x * (n * (if d = 16 then 2 else 1)) := by
  rw [lineBytes]
  rcases h with rfl | rfl
  · rw [if_neg (by decide), show x * (n * 1) = n * x by ring]; omega
  · rw [if_pos rfl, show x * (n * 2) = 2 * (n * x) by ring]; omega

theorem pixelBytes_mul {n d : Nat} (h : d = 8 ∨ d = 16) : pixelBytes n d = n * (if d = 16 then 2 else 1) := by
  rw [pixelBytes]
  rcases h with rfl | rfl
  · rw [if_neg (by decide)]; omega
  · rw [if_pos rfl]; omega

theorem lt_of_row {j y stride : Nat} (h : j < y) : stride * j + stride ≤ stride * y := by
  rw [← Nat.mul_succ]; exact Nat.mul_le_mul_left _ h

/-- the rows without alpha added -/
theorem rows_same {raw : List UInt8} {n outN x y d wb fb off stride width bytes : Nat} {pic : Nat → Nat → UInt8} {m0 : Buf}
    (hbytes : (if d = 16 then 2 else 1) = bytes) (hwb : widthBytes n x d = wb) (hst : x * outN * bytes = stride)
    (hoff : ∀ j, (if d < 8 then stride * j + (x * outN - wb) else stride * j) = stride * j + off)
    (hfb : (if d < 8 then 1 else n * bytes) = fb) (hob : ¬ d < 8 → outN * bytes = fb)
    (hwidth : (if d < 8 then wb else x) = width) (hwf : fb + (width - 1) * fb = wb) (hpos : 0 < fb)
    (hA : d < 8 ∨ n = outN) (hno : ¬ (d < 8 ∧ x < wb)) (hfit : off + wb ≤ stride)
    (hF : Filtered fb wb y pic raw) (hsize : stride * y ≤ m0.size) :
    ∃ m, loop y (row raw n outN x d) (m0, 0) = .ok (m, y * (wb + 1)) ∧ m.size = m0.size ∧
      ∀ j < y, ∀ t < wb, m.at_ (stride * j + off + t) = some (pic j t) := by
  obtain ⟨s, h1, h2, h3, h4⟩ := loop_inv (s := (m0, 0)) (n := y) (f := row raw n outN x d)
    (fun j s => s.2 = j * (wb + 1) ∧ s.1.size = m0.size ∧ ∀ i < j, ∀ t < wb, s.1.at_ (stride * i + off + t) = some (pic i t))
    ⟨by simp, rfl, fun i hi => by omega⟩ (by
      rintro j hj ⟨m, rp⟩ ⟨h1, h2, h3⟩
      simp only at h1 h2 h3
      subst h1
      obtain ⟨f, f1, f2, f3⟩ := hF j hj
      obtain ⟨m', e1, e2, e3⟩ := row_same (m := m) hbytes hwb hst (hoff j) hfb hob hwidth hwf hpos hA hno hfit f1 f2 f3
        (by rw [h2]; exact Nat.le_trans (lt_of_row hj) hsize) (fun h0 => h3 (j - 1) (by omega))
      refine ⟨_, e1, rfl, e2.1.trans h2, fun i hi t ht => ?_⟩
      by_cases hij : i = j
      · rw [hij]; exact e3 t ht
      · have := lt_of_row (stride := stride) (show i < j by omega)
        rw [e2.2 _ (by omega)]; exact h3 i (by omega) t ht)
  exact ⟨s.1, by rw [h1, ← h2], h3, h4⟩

/-- the rows with alpha added -/
theorem rows_alpha {raw : List UInt8} {n x y d wb fb ob stride bytes : Nat} {pic : Nat → Nat → UInt8} {m0 : Buf}
    (hd : d = 8 ∧ bytes = 1 ∨ d = 16 ∧ bytes = 2) (hwb : widthBytes n x d = wb) (hst : stride = x * ob)
    (hfb : n * bytes = fb) (hob : ob = fb + bytes) (hwf : fb + (x - 1) * fb = wb) (hpos : 0 < fb) (hx : 0 < x)
    (hF : Filtered fb wb y pic raw) (hsize : stride * y ≤ m0.size) :
    ∃ m, loop y (row raw n (n + 1) x d) (m0, 0) = .ok (m, y * (wb + 1)) ∧ m.size = m0.size ∧
      ∀ j < y, ∀ q < x, (∀ k < fb, m.at_ (stride * j + q * ob + k) = some (pic j (q * fb + k))) ∧
        ∀ b < bytes, m.at_ (stride * j + q * ob + fb + b) = some 255 := by
  obtain ⟨s, h1, h2, h3, h4⟩ := loop_inv (s := (m0, 0)) (n := y) (f := row raw n (n + 1) x d)
    (fun j s => s.2 = j * (wb + 1) ∧ s.1.size = m0.size ∧
      ∀ i < j, ∀ q < x, (∀ k < fb, s.1.at_ (stride * i + q * ob + k) = some (pic i (q * fb + k))) ∧
        ∀ b < bytes, s.1.at_ (stride * i + q * ob + fb + b) = some 255)
    ⟨by simp, rfl, fun i hi => by omega⟩ (by
      rintro j hj ⟨m, rp⟩ ⟨h1, h2, h3⟩
      simp only at h1 h2 h3
      subst h1
      obtain ⟨f, f1, f2, f3⟩ := hF j hj
      obtain ⟨m', e1, e2, e3⟩ := row_alpha (m := m) hd hwb hst hfb hob hwf hpos hx f1 f2 f3
        (by rw [h2]; exact Nat.le_trans (lt_of_row hj) hsize) (fun h0 q hq k hk => (h3 (j - 1) (by omega) q hq).1 k hk)
      refine ⟨_, e1, rfl, e2.1.trans h2, fun i hi q hq => ?_⟩
      by_cases hij : i = j
      · rw [hij]; exact e3 q hq
      · have h5 := lt_of_row (stride := stride) (show i < j by omega)
        have h6 : q * ob + ob ≤ stride := by rw [hst, ← Nat.succ_mul]; exact Nat.mul_le_mul_right _ hq
        refine ⟨fun k hk => ?_, fun b hb => ?_⟩
        · rw [e2.2 _ (by omega)]; exact (h3 i (by omega) q hq).1 k hk
        · rw [e2.2 _ (by omega)]; exact (h3 i (by omega) q hq).2 b hb)
  exact ⟨s.1, by rw [h1, ← h2], h3, h4⟩

theorem swapBytes_ok {count : Nat} {m0 : Buf} (hsize : 2 * count ≤ m0.size)
    (hdef : ∀ q < count, (∃ h, m0.at_ (2 * q) = some h) ∧ ∃ l, m0.at_ (2 * q + 1) = some l) :
    ∃ m, swapBytes count m0 = .ok m ∧ m.size = m0.size ∧
      ∀ q < count, m.at_ (2 * q) = m0.at_ (2 * q + 1) ∧ m.at_ (2 * q + 1) = m0.at_ (2 * q) := by
  obtain ⟨m, h1, h2, h3, h4⟩ := loop_inv (s := m0) (n := count)
    (f := fun i m => load m (2 * i) >>= fun h => load m (2 * i + 1) >>= fun l => store m (2 * i) l >>= fun m => store m (2 * i + 1) h)
    (fun i m => m.size = m0.size ∧ (∀ q < i, m.at_ (2 * q) = m0.at_ (2 * q + 1) ∧ m.at_ (2 * q + 1) = m0.at_ (2 * q)) ∧
      ∀ q, i ≤ q → m.at_ (2 * q) = m0.at_ (2 * q) ∧ m.at_ (2 * q + 1) = m0.at_ (2 * q + 1))
    ⟨rfl, fun q hq => by omega, fun q _ => ⟨rfl, rfl⟩⟩ (by
      intro i hi m ⟨h1, h2, h3⟩
      obtain ⟨⟨h, hh⟩, l, hl⟩ := hdef i hi
      have hm := h3 i (Nat.le_refl _)
      obtain ⟨m1, e1, e2, e3, e4⟩ := store_ok (m := m) (i := 2 * i) l (by omega)
      obtain ⟨m2, f1, f2, f3, f4⟩ := store_ok (m := m1) (i := 2 * i + 1) h (by omega)
      refine ⟨m2, ?_, by omega, fun q hq => ?_, fun q hq => ?_⟩
      · simp only [load_ok (show 2 * i < m.size by omega) (hm.1.trans hh), load_ok (show 2 * i + 1 < m.size by omega) (hm.2.trans hl),
          Outcome.bind_ok, e1]
        exact f1
      · by_cases hqi : q = i
        · subst hqi
          exact ⟨by rw [f4 _ (by omega), e3, hl], by rw [f3, hh]⟩
        · rw [f4 _ (by omega), e4 _ (by omega), f4 _ (by omega), e4 _ (by omega)]
          exact h2 q (by omega)
      · rw [f4 _ (by omega), e4 _ (by omega), f4 _ (by omega), e4 _ (by omega)]
        exact h3 q (by omega))
  exact ⟨m, h1, h2, h3⟩

theorem decomp {q x y N : Nat} (h : q < x * y * N) : ∃ j < y, ∃ i < x, ∃ c < N, q = (j * x + i) * N + c := by
  have hN : 0 < N := by rcases Nat.eq_zero_or_pos N with rfl | h'; (simp at h); exact h'
  have hx : 0 < x := by rcases Nat.eq_zero_or_pos x with rfl | h'; (simp at h); exact h'
  have h1 : q / N < y * x := by rw [Nat.div_lt_iff_lt_mul hN]; rwa [Nat.mul_comm y x]
  refine ⟨q / N / x, ?_, q / N % x, Nat.mod_lt _ hx, q % N, Nat.mod_lt _ hN, ?_⟩
  · rwa [Nat.div_lt_iff_lt_mul hx]
  · rw [Nat.mul_comm (q / N / x) x, Nat.div_add_mod, Nat.mul_comm, Nat.div_add_mod]

theorem shown_scale {d : Nat} (hd : d = 1 ∨ d = 2 ∨ d = 4) (color v : Nat) (hv : v < 2 ^ d) :
    ∃ t, Inflate.tab depthScale d = .ok t ∧
      (UInt8.ofNat ((if color = 0 then t else 1) * v)).toNat = shown color d v := by
  have h255 : ∀ s, (UInt8.ofNat s).toNat = s % 256 := fun s => by simp
  rcases hd with rfl | rfl | rfl
  · refine ⟨255, rfl, ?_⟩
    rw [h255, shown]
    by_cases hc : color = 0
    · rw [if_pos hc, if_pos ⟨by decide, hc⟩]; simp only [Nat.reducePow, Nat.reduceSub] at *; omega
    · rw [if_neg hc, if_neg (by tauto)]; simp only [Nat.reducePow] at hv; omega
  · refine ⟨0x55, rfl, ?_⟩
    rw [h255, shown]
    by_cases hc : color = 0
    · rw [if_pos hc, if_pos ⟨by decide, hc⟩]; simp only [Nat.reducePow, Nat.reduceSub] at *; omega
    · rw [if_neg hc, if_neg (by tauto)]; simp only [Nat.reducePow] at hv; omega
  · refine ⟨0x11, rfl, ?_⟩
    rw [h255, shown]
    by_cases hc : color = 0
    · rw [if_pos hc, if_pos ⟨by decide, hc⟩]; simp only [Nat.reducePow, Nat.reduceSub] at *; omega
    · rw [if_neg hc, if_neg (by tauto)]; simp only [Nat.reducePow] at hv; omega

/-- the second pass for less than 8 bits -/
theorem expandBits_ok {n outN x y d color : Nat} {pic : Nat → Nat → UInt8} {m0 : Buf} (hd : d = 1 ∨ d = 2 ∨ d = 4)
    (hout : outN = n ∨ outN = n + 1 ∧ (n = 1 ∨ n = 3)) (hsize : x * outN * y ≤ m0.size)
    (hin : ∀ j < y, ∀ t < lineBytes n x d, m0.at_ (x * outN * j + (x * outN - lineBytes n x d) + t) = some (pic j t)) :
    ∃ m, expandBits n outN x y d color m0 = .ok m ∧ m.size = m0.size ∧
      ∀ j < y, ∀ i < x, ∀ c < outN, ∃ v, m.at_ (x * outN * j + (i * outN + c)) = some v ∧
        v.toNat = if c < n then shown color d (sampleOf (pic j) d (i * n + c)) else 255 := by
  have hK : lineBytes n x d = (x * n * d + 7) / 8 := by rw [lineBytes, Nat.mul_comm n x]
  have hle : x * n ≤ x * outN := Nat.mul_le_mul_left _ (by omega)
  obtain ⟨m, h1, h2, h3, h4⟩ := loop_inv (s := m0) (n := y)
    (f := fun j m =>
      let stride := x * outN
      Inflate.tab depthScale d >>= fun t =>
        let scale := if color = 0 then t else 1
        unpack d scale (x * n) (stride * j) (stride * j + (x * outN - widthBytes n x d)) m >>= fun m =>
          if n ≠ outN then insertAlpha n x (stride * j) m else .ok m)
    (fun j m => m.size = m0.size ∧
      (∀ i < j, ∀ p < x, ∀ c < outN, ∃ v, m.at_ (x * outN * i + (p * outN + c)) = some v ∧
        v.toNat = if c < n then shown color d (sampleOf (pic i) d (p * n + c)) else 255) ∧
      ∀ i < y, j ≤ i → ∀ t < lineBytes n x d, m.at_ (x * outN * i + (x * outN - lineBytes n x d) + t) = some (pic i t))
    ⟨rfl, fun i hi => by omega, fun i hi _ => hin i hi⟩ (by
      intro j hj m ⟨h1, h2, h3⟩
      have hrow := lt_of_row (stride := x * outN) hj
      obtain ⟨t, ht, hsc⟩ : ∃ t, Inflate.tab depthScale d = .ok t ∧ ∀ v < 2 ^ d,
          (UInt8.ofNat ((if color = 0 then t else 1) * v)).toNat = shown color d v := by
        obtain ⟨t, ht, _⟩ := shown_scale hd color 0 (Nat.two_pow_pos d)
        refine ⟨t, ht, fun v hv => ?_⟩
        obtain ⟨t', ht', h'⟩ := shown_scale hd color v hv
        rw [ht] at ht'
        cases ht'
        exact h'
      obtain ⟨m1, e1, e2, e3⟩ := unpack_ok (d := d) (scale := if color = 0 then t else 1) (K := x * n) (X := x * outN) (cur := x * outN * j)
        (m0 := m) (r := pic j) hd hle (by rw [h1]; omega) (fun t ht => by
          have := h3 j hj (Nat.le_refl _) t (by rw [hK]; exact ht)
          rw [hK] at this
          exact this)
      obtain ⟨m2, f1, f2, f3⟩ : ∃ m2, (if n ≠ outN then insertAlpha n x (x * outN * j) m1 else .ok m1) = .ok m2 ∧
          Only (x * outN * j) (x * outN * j + x * outN) m m2 ∧ ∀ p < x, ∀ c < outN, ∃ v,
            m2.at_ (x * outN * j + (p * outN + c)) = some v ∧
            v.toNat = if c < n then shown color d (sampleOf (pic j) d (p * n + c)) else 255 := by
        have hpx : ∀ p < x, ∀ c < n, p * n + c < x * n := fun p hp c hc => by
          calc p * n + c < p * n + n := by omega
            _ = (p + 1) * n := by ring
            _ ≤ x * n := Nat.mul_le_mul_right _ hp
        by_cases hne : n = outN
        · refine ⟨m1, by rw [if_neg (by simp [hne])], e2.mono (Nat.le_refl _) (by omega), fun p hp c hc => ?_⟩
          subst hne
          refine ⟨_, e3 (p * n + c) (hpx p hp c hc), ?_⟩
          rw [if_pos hc, hsc _ (sampleOf_lt _ _ _)]
        · obtain ⟨rfl, hn⟩ := hout.resolve_left (fun h => hne h.symm)
          obtain ⟨m2, f1, f2, f3⟩ := insertAlpha_ok (n := n) (x := x) (cur := x * (n + 1) * j) (m0 := m1)
            (v := fun s => UInt8.ofNat ((if color = 0 then t else 1) * sampleOf (pic j) d s)) hn (by rw [e2.1, h1]; omega) e3
          refine ⟨m2, by rw [if_pos (by simp), f1], (e2.mono (Nat.le_refl _) (by omega)).trans f2, fun p hp c hc => ?_⟩
          by_cases hcn : c < n
          · refine ⟨_, (f3 p hp).1 c hcn, ?_⟩
            rw [if_pos hcn, hsc _ (sampleOf_lt _ _ _)]
          · obtain rfl : c = n := by omega
            exact ⟨255, (f3 p hp).2, by rw [if_neg hcn]; rfl⟩
      refine ⟨m2, ?_, f2.1.trans h1, fun i hi p hp c hc => ?_, fun i hi hji t ht => ?_⟩
      · simp only [ht, Outcome.bind_ok, widthBytes_eq]
        rw [hK, e1, Outcome.bind_ok, f1]
      · by_cases hij : i = j
        · rw [hij]; exact f3 p hp c hc
        · obtain ⟨v, hv, hv'⟩ := h2 i (by omega) p hp c hc
          refine ⟨v, ?_, hv'⟩
          have h5 := lt_of_row (stride := x * outN) (show i < j by omega)
          have h6 : p * outN + outN ≤ x * outN := by rw [← Nat.succ_mul]; exact Nat.mul_le_mul_right _ hp
          rw [f2.2 _ (by omega), hv]
      · have h5 := lt_of_row (stride := x * outN) (show j < i by omega)
        rw [f2.2 _ (by omega)]
        exact h3 i hi (by omega) t ht)
  exact ⟨m, h1, h2, h3⟩

theorem Filtered.length {bpp wb y : Nat} {pic : Nat → Nat → UInt8} {raw : List UInt8} (h : Filtered bpp wb y pic raw) :
    (wb + 1) * y ≤ raw.length := by
  rcases Nat.eq_zero_or_pos y with rfl | hy
  · simp
  · obtain ⟨f, _, h1, h2⟩ := h (y - 1) (by omega)
    obtain ⟨i, rfl⟩ : ∃ i, y = i + 1 := ⟨y - 1, by omega⟩
    simp only [Nat.add_sub_cancel] at h1 h2
    rw [Nat.mul_succ, Nat.mul_comm]
    rcases Nat.eq_zero_or_pos wb with rfl | hw
    · have := (List.getElem?_eq_some_iff.mp h1).1; omega
    · have := (List.getElem?_eq_some_iff.mp (h2 (wb - 1) (by omega))).1; omega

/-- `stbi__create_png_image_raw` undoes the filters and gives the samples -/
theorem createRaw_ok {room n outN x y d : Nat} {raw : List UInt8} {pic : Nat → Nat → UInt8} (color : Nat)
    (hn : 0 < n) (hx : 0 < x) (hd : d = 1 ∨ d = 2 ∨ d = 4 ∨ d = 8 ∨ d = 16) (hout : outN = n ∨ outN = n + 1)
    (hnd : d < 8 → n * d ≤ 8) (hal : d < 8 → outN = n + 1 → n = 1 ∨ n = 3)
    (hsz : x * y * (outN * (if d = 16 then 2 else 1)) < 2 ^ 31) (hroom : x * y * (outN * (if d = 16 then 2 else 1)) ≤ room)
    (hline : n * x * d + 7 < 2 ^ 31) (hF : Filtered (pixelBytes n d) (lineBytes n x d) y pic raw) :
    ∃ m, createRaw room raw n outN x y d color = .ok m ∧ m.size = x * y * (outN * (if d = 16 then 2 else 1)) ∧
      ∀ j < y, ∀ i < x, ∀ c < outN, sampleAt m d ((j * x + i) * outN + c) =
        .ok (if c < n then shown color d (sampleOf (pic j) d (i * n + c)) else top d) := by
  have hlen := hF.length
  have hmod : ¬ raw.length < (widthBytes n x d + 1) * y % 2 ^ 32 := by
    rw [widthBytes_eq]
    have := Nat.mod_le ((lineBytes n x d + 1) * y) (2 ^ 32)
    omega
  have hrun : createRaw room raw n outN x y d color =
      (loop y (row raw n outN x d) (fresh (x * y * (outN * (if d = 16 then 2 else 1))), 0) >>= fun s =>
        if d < 8 then expandBits n outN x y d color s.1
        else if d = 16 then swapBytes (x * y * outN) s.1
        else .ok s.1) := by
    simp only [createRaw]
    rw [if_neg (by omega), mallocMad3, if_pos ⟨hsz, hroom⟩]
    simp only
    rw [if_neg (by omega), if_neg hmod]
  have hnx : 0 < n * x := Nat.mul_pos hn hx
  rcases (by omega : d < 8 ∨ d = 8 ∨ d = 16) with h8 | h8
  · -- less than 8 bits
    have hd' : d = 1 ∨ d = 2 ∨ d = 4 := by omega
    have hp : pixelBytes n d = 1 := by
      have := hnd h8
      have : 0 < n * d := Nat.mul_pos hn (by omega)
      rw [pixelBytes]; omega
    have hb1 : (if d = 16 then 2 else 1) = 1 := if_neg (by omega)
    rw [hb1, Nat.mul_one] at hsz hroom
    have hwx : lineBytes n x d ≤ x := by
      rw [lineBytes, Nat.div_le_iff_le_mul_add_pred (by decide), show n * x * d = x * (n * d) by ring]
      have := Nat.mul_le_mul_left x (hnd h8)
      omega
    have hwpos : 0 < lineBytes n x d := by
      rw [lineBytes]
      have : 0 < n * x * d := Nat.mul_pos hnx (by omega)
      omega
    have hxo : x ≤ x * outN := Nat.le_mul_of_pos_right _ (by omega)
    rw [hp] at hF
    obtain ⟨m1, e1, e2, e3⟩ := rows_same (raw := raw) (n := n) (outN := outN) (x := x) (y := y) (d := d) (wb := lineBytes n x d) (fb := 1)
      (off := x * outN - lineBytes n x d) (stride := x * outN) (width := lineBytes n x d) (bytes := 1) (pic := pic)
      (m0 := fresh (x * y * outN)) hb1 (widthBytes_eq n x d) (by rw [Nat.mul_one]) (fun j => if_pos h8) (if_pos h8)
      (fun h => absurd h8 h) (if_pos h8) (by omega) (by omega) (.inl h8) (by omega) (by omega) hF
      (by rw [fresh, show x * outN * y = x * y * outN by ring])
    obtain ⟨m2, f1, f2, f3⟩ := expandBits_ok (n := n) (outN := outN) (x := x) (y := y) (color := color) (pic := pic) (m0 := m1) hd'
      (hout.imp id fun h => ⟨h, hal h8 h⟩) (by rw [e2, fresh, show x * outN * y = x * y * outN by ring]) e3
    refine ⟨m2, ?_, by rw [f2, e2, hb1, Nat.mul_one]; rfl, fun j hj i hi c hc => ?_⟩
    · rw [hrun, hb1, Nat.mul_one, e1, Outcome.bind_ok, if_pos h8]; exact f1
    · obtain ⟨v, hv, hv'⟩ := f3 j hj i hi c hc
      have hpos : (j * x + i) * outN + c = x * outN * j + (i * outN + c) := by ring
      have hlt : x * outN * j + (i * outN + c) < m2.size := by
        have h5 := lt_of_row (stride := x * outN) hj
        have h6 : i * outN + outN ≤ x * outN := by rw [← Nat.succ_mul]; exact Nat.mul_le_mul_right _ hi
        rw [f2, e2, fresh, show x * y * outN = x * outN * y by ring]
        simp only; omega
      have ht : top d = 255 := if_neg (by omega)
      rw [sampleAt, if_neg (by omega), hpos, load_ok hlt hv, Outcome.bind_ok, hv', ht]
  · -- 8 or 16 bits
    obtain ⟨bytes, hbytes⟩ : ∃ b, b = if d = 16 then 2 else 1 := ⟨_, rfl⟩
    have hdb : d = 8 ∧ bytes = 1 ∨ d = 16 ∧ bytes = 2 := by rcases h8 with rfl | rfl <;> simp [hbytes]
    rw [pixelBytes_mul h8, lineBytes_mul h8, ← hbytes] at hF
    rw [← hbytes] at hsz hroom hrun
    rw [← hbytes]
    have hw : widthBytes n x d = x * (n * bytes) := by rw [widthBytes_eq, lineBytes_mul h8, hbytes]
    have hfb : 0 < n * bytes := Nat.mul_pos hn (by omega)
    have hwf : n * bytes + (x - 1) * (n * bytes) = x * (n * bytes) := by
      obtain ⟨i, rfl⟩ : ∃ i, x = i + 1 := ⟨x - 1, by omega⟩
      simp only [Nat.add_sub_cancel, Nat.succ_mul]; omega
    -- the bytes of all samples
    obtain ⟨m1, e1, e2, e3⟩ : ∃ m1, loop y (row raw n outN x d) (fresh (x * y * (outN * bytes)), 0) = .ok (m1, y * (x * (n * bytes) + 1)) ∧
        m1.size = x * y * (outN * bytes) ∧ ∀ j < y, ∀ i < x, ∀ c < outN, ∀ b < bytes,
          m1.at_ (((j * x + i) * outN + c) * bytes + b) = some (if c < n then pic j ((i * n + c) * bytes + b) else 255) := by
      have hin : ∀ c < n, ∀ b < bytes, c * bytes + b < n * bytes := fun c hc b hb => by
        calc c * bytes + b < c * bytes + bytes := by omega
          _ = (c + 1) * bytes := by ring
          _ ≤ n * bytes := Nat.mul_le_mul_right _ hc
      rcases hout with rfl | rfl
      · obtain ⟨m1, e1, e2, e3⟩ := rows_same (raw := raw) (n := outN) (outN := outN) (x := x) (y := y) (d := d) (wb := x * (outN * bytes))
          (fb := outN * bytes) (off := 0) (stride := x * (outN * bytes)) (width := x) (bytes := bytes) (pic := pic)
          (m0 := fresh (x * y * (outN * bytes))) hbytes.symm hw (by ring) (fun j => by rw [if_neg (by omega)]; rfl) (if_neg (by omega))
          (fun _ => rfl) (if_neg (by omega)) hwf hfb (.inr rfl) (by omega) (by omega) hF
          (by rw [fresh, show x * (outN * bytes) * y = x * y * (outN * bytes) by ring])
        refine ⟨m1, e1, e2, fun j hj i hi c hc b hb => ?_⟩
        have ht : (i * outN + c) * bytes + b < x * (outN * bytes) := by
          have := hin c hc b hb
          calc (i * outN + c) * bytes + b = i * (outN * bytes) + (c * bytes + b) := by ring
            _ < i * (outN * bytes) + outN * bytes := by omega
            _ = (i + 1) * (outN * bytes) := by ring
            _ ≤ x * (outN * bytes) := Nat.mul_le_mul_right _ hi
        have := e3 j hj _ ht
        rw [show x * (outN * bytes) * j + 0 + ((i * outN + c) * bytes + b) = ((j * x + i) * outN + c) * bytes + b by ring] at this
        rw [this, if_pos hc]
      · obtain ⟨m1, e1, e2, e3⟩ := rows_alpha (raw := raw) (n := n) (x := x) (y := y) (d := d) (wb := x * (n * bytes))
          (fb := n * bytes) (ob := n * bytes + bytes) (stride := x * (n * bytes + bytes)) (bytes := bytes) (pic := pic)
          (m0 := fresh (x * y * ((n + 1) * bytes))) hdb hw rfl rfl rfl hwf hfb hx hF
          (by rw [fresh, show x * (n * bytes + bytes) * y = x * y * ((n + 1) * bytes) by ring])
        refine ⟨m1, e1, e2, fun j hj i hi c hc b hb => ?_⟩
        have := e3 j hj i hi
        by_cases hcn : c < n
        · have := this.1 _ (hin c hcn b hb)
          rw [show x * (n * bytes + bytes) * j + i * (n * bytes + bytes) + (c * bytes + b) = ((j * x + i) * (n + 1) + c) * bytes + b by ring,
            show i * (n * bytes) + (c * bytes + b) = (i * n + c) * bytes + b by ring] at this
          rw [this, if_pos hcn]
        · obtain rfl : c = n := by omega
          have := this.2 b hb
          rw [show x * (c * bytes + bytes) * j + i * (c * bytes + bytes) + c * bytes + b = ((j * x + i) * (c + 1) + c) * bytes + b by ring] at this
          rw [this, if_neg hcn]
    have hpl : ∀ j < y, ∀ i < x, ∀ c < outN, (j * x + i) * outN + c < x * y * outN := fun j hj i hi c hc => by
      calc (j * x + i) * outN + c < (j * x + i) * outN + outN := by omega
        _ = (j * x + i + 1) * outN := by ring
        _ ≤ (x * y) * outN := by
          refine Nat.mul_le_mul_right _ ?_
          have := lt_of_row (stride := x) hj
          rw [Nat.mul_comm j x]
          omega
    rcases hdb with ⟨rfl, rfl⟩ | ⟨rfl, rfl⟩
    · refine ⟨m1, ?_, e2, fun j hj i hi c hc => ?_⟩
      · rw [hrun, e1, Outcome.bind_ok, if_neg (by decide), if_neg (by decide)]
      · have := e3 j hj i hi c hc 0 (by decide)
        simp only [Nat.mul_one, Nat.add_zero] at this e2
        rw [sampleAt, if_neg (by decide), load_ok (by rw [e2]; exact hpl j hj i hi c hc) this, Outcome.bind_ok]
        by_cases hcn : c < n
        · rw [if_pos hcn, if_pos hcn, shown, if_neg (by omega), sampleOf8]
        · rw [if_neg hcn, if_neg hcn]; rfl
    · obtain ⟨m2, f1, f2, f3⟩ := swapBytes_ok (count := x * y * outN) (m0 := m1) (by rw [e2, show x * y * (outN * 2) = 2 * (x * y * outN) by ring]) (fun q hq => by
        obtain ⟨j, hj, i, hi, c, hc, rfl⟩ := decomp hq
        have h0 := e3 j hj i hi c hc 0 (by decide)
        have h1 := e3 j hj i hi c hc 1 (by decide)
        rw [Nat.mul_comm, Nat.add_zero] at h0
        rw [Nat.mul_comm] at h1
        exact ⟨⟨_, h0⟩, _, h1⟩)
      refine ⟨m2, ?_, f2.trans e2, fun j hj i hi c hc => ?_⟩
      · rw [hrun, e1, Outcome.bind_ok, if_neg (by decide), if_pos rfl]; exact f1
      · have h0 := e3 j hj i hi c hc 0 (by decide)
        have h1 := e3 j hj i hi c hc 1 (by decide)
        rw [Nat.mul_comm, Nat.add_zero] at h0
        rw [Nat.mul_comm] at h1
        have hq := hpl j hj i hi c hc
        obtain ⟨g1, g2⟩ := f3 _ hq
        have hs : m2.size = 2 * (x * y * outN) := by rw [f2, e2]; ring
        rw [sampleAt, if_pos rfl, load16, load_ok (by omega) (g1.trans h1), Outcome.bind_ok, load_ok (by omega) (g2.trans h0), Outcome.bind_ok]
        by_cases hcn : c < n
        · rw [if_pos hcn, if_pos hcn, if_pos hcn, shown, if_neg (by omega), sampleOf16, Nat.mul_comm (i * n + c) 2]
          simp only [Nat.add_zero]
          congr 1
          omega
        · rw [if_neg hcn, if_neg hcn, if_neg hcn]; rfl

end Verif.Png
