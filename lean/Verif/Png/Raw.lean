import Verif.Png.Rows

/-! # The rows of a picture -/

namespace Verif.Png

theorem widthBytes_eq (n x d : Nat) : widthBytes n x d = lineBytes n x d := by
  rw [widthBytes, lineBytes, Nat.shiftRight_eq_div_pow]

theorem before_lt {bpp : Nat} {r : Nat → UInt8} {t : Nat} (h : t < bpp) : before bpp r t = 0 := by rw [before, if_pos h]

theorem before_ge {bpp : Nat} {r : Nat → UInt8} {k : Nat} : before bpp r (bpp + k) = (r k).toNat := by
  rw [before, if_neg (by omega), Nat.add_sub_cancel_left]

theorem above_zero {pic : Nat → Nat → UInt8} {j : Nat} (h : j = 0) (t : Nat) : above pic j t = 0 := by
  rw [above, if_pos h]

theorem above_pos {pic : Nat → Nat → UInt8} {j : Nat} (h : 0 < j) (t : Nat) : above pic j t = pic (j - 1) t := by
  rw [above, if_neg (by omega)]

/-- a row without alpha added -/
theorem row_same {raw : List UInt8} {n outN x d j wb fb off stride width bytes : Nat} {pic : Nat → Nat → UInt8} {m : Buf} {f : UInt8}
    (hbytes : (if d = 16 then 2 else 1) = bytes) (hwb : widthBytes n x d = wb) (hst : x * outN * bytes = stride)
    (hoff : (if d < 8 then stride * j + (x * outN - wb) else stride * j) = stride * j + off)
    (hfb : (if d < 8 then 1 else n * bytes) = fb) (hob : ¬ d < 8 → outN * bytes = fb)
    (hwidth : (if d < 8 then wb else x) = width) (hwf : fb + (width - 1) * fb = wb) (hpos : 0 < fb)
    (hA : d < 8 ∨ n = outN) (hno : ¬ (d < 8 ∧ x < wb)) (hfit : off + wb ≤ stride)
    (hf : f.toNat ≤ 4) (hrow : raw[j * (wb + 1)]? = some f)
    (hraw : ∀ t < wb, raw[j * (wb + 1) + 1 + t]? =
      some (pic j t - UInt8.ofNat (predict f.toNat (before fb (pic j) t) (above pic j t).toNat (before fb (above pic j) t))))
    (hsize : stride * j + stride ≤ m.size)
    (hprev : 0 < j → ∀ t < wb, m.at_ (stride * (j - 1) + off + t) = some (pic (j - 1) t)) :
    ∃ m', row raw n outN x d j (m, j * (wb + 1)) = .ok (m', (j + 1) * (wb + 1)) ∧ Keep (stride * j) m m' ∧
      ∀ t < wb, m'.at_ (stride * j + off + t) = some (pic j t) := by
  obtain ⟨f', hu⟩ := used j hf
  have hup : (j = 0 ∧ ∀ t, above pic j t = 0) ∨
      (0 < j ∧ ∀ k < wb, m.at_ (stride * j + off + k - stride) = some (above pic j k)) := by
    by_cases hj : j = 0
    · exact .inl ⟨hj, fun t => above_zero hj t⟩
    · refine .inr ⟨by omega, fun k hk => ?_⟩
      obtain ⟨i, rfl⟩ : ∃ i, j = i + 1 := ⟨j - 1, by omega⟩
      rw [above_pos (by omega), ← hprev (by omega) k hk, Nat.add_sub_cancel, Nat.mul_succ]
      congr 1
      omega
  obtain ⟨m1, e1, k1, p1⟩ := rowFirst_ok (raw := raw) (stride := stride) (fb := fb) (off := off) (rp := j * (wb + 1) + 1) (m0 := m)
    (pic := pic j) (ab := above pic j) hu
    (fun k hk => by rw [hraw k (by omega), before_lt hk, before_lt hk]) (by omega) hsize
    (hup.imp id fun h => ⟨h.1, fun k hk => h.2 k (by omega)⟩)
  obtain ⟨m2, e2, k2, p2⟩ := rowSame_ok (raw := raw) (stride := stride) (fb := fb) (nk := (width - 1) * fb) (off := off)
    (rp := j * (wb + 1) + 1 + fb) (m0 := m1) (pic := pic j) (ab := above pic j) hu
    (fun k hk => by rw [Nat.add_assoc _ fb k, hraw _ (by omega), before_ge, before_ge]) hpos (by omega) (by rw [k1.1]; exact hsize) p1
    (hup.imp id fun h => ⟨h.1, fun k hk => by
      have hle : stride ≤ stride * j := Nat.le_mul_of_pos_right _ h.1
      rw [k1.2 _ (by omega), h.2 k (by omega)]⟩)
  refine ⟨m2, ?_, k1.trans k2, fun t ht => p2 t (by omega)⟩
  simp only [row, hbytes, hst, hwb, hoff, hfb, hwidth]
  rw [get_ok hrow, Outcome.bind_ok, if_neg (by omega), if_neg hno, hu.2, Outcome.bind_ok, e1, Outcome.bind_ok,
    if_neg (by rintro ⟨h8, hne⟩; rcases hA with h | h <;> omega), Outcome.bind_ok, if_pos hA,
    show (if d < 8 then stride * j + off + 1 else stride * j + off + outN * bytes) = stride * j + off + fb by
      split
      · rename_i h; rw [if_pos h] at hfb; rw [hfb]
      · rename_i h; rw [hob h], e2, Outcome.bind_ok]
  congr 2
  rw [Nat.succ_mul]
  omega

/-- a row with alpha added -/
theorem row_alpha {raw : List UInt8} {n x d j wb fb ob stride bytes : Nat} {pic : Nat → Nat → UInt8} {m : Buf} {f : UInt8}
    (hd : d = 8 ∧ bytes = 1 ∨ d = 16 ∧ bytes = 2) (hwb : widthBytes n x d = wb) (hst : stride = x * ob)
    (hfb : n * bytes = fb) (hob : ob = fb + bytes) (hwf : fb + (x - 1) * fb = wb) (hpos : 0 < fb) (hx : 0 < x)
    (hf : f.toNat ≤ 4) (hrow : raw[j * (wb + 1)]? = some f)
    (hraw : ∀ t < wb, raw[j * (wb + 1) + 1 + t]? =
      some (pic j t - UInt8.ofNat (predict f.toNat (before fb (pic j) t) (above pic j t).toNat (before fb (above pic j) t))))
    (hsize : stride * j + stride ≤ m.size)
    (hprev : 0 < j → ∀ q < x, ∀ k < fb, m.at_ (stride * (j - 1) + q * ob + k) = some (pic (j - 1) (q * fb + k))) :
    ∃ m', row raw n (n + 1) x d j (m, j * (wb + 1)) = .ok (m', (j + 1) * (wb + 1)) ∧ Keep (stride * j) m m' ∧
      ∀ q < x, (∀ k < fb, m'.at_ (stride * j + q * ob + k) = some (pic j (q * fb + k))) ∧
        ∀ b < bytes, m'.at_ (stride * j + q * ob + fb + b) = some 255 := by
  obtain ⟨f', hu⟩ := used j hf
  have hbytes : (if d = 16 then 2 else 1) = bytes := by rcases hd with ⟨rfl, rfl⟩ | ⟨rfl, rfl⟩ <;> rfl
  have hb1 : 1 ≤ bytes ∧ bytes ≤ 2 := by omega
  have hob1 : (n + 1) * bytes = ob := by rw [Nat.succ_mul, hfb, hob]
  have hstride : x * (n + 1) * bytes = stride := by rw [Nat.mul_assoc, hob1, hst]
  have hxo : ob ≤ stride := by rw [hst]; exact Nat.le_mul_of_pos_left _ hx
  have hwb' : wb = x * fb := by
    rw [← hwf]
    obtain ⟨i, rfl⟩ : ∃ i, x = i + 1 := ⟨x - 1, by omega⟩
    simp only [Nat.add_sub_cancel, Nat.succ_mul]; omega
  have hin : ∀ q < x, ∀ k < fb, q * fb + k < wb := fun q hq k hk => by
    rw [hwb']; calc q * fb + k < q * fb + fb := by omega
      _ = (q + 1) * fb := by ring
      _ ≤ x * fb := Nat.mul_le_mul_right _ hq
  have hup : (j = 0 ∧ ∀ t, above pic j t = 0) ∨
      (0 < j ∧ ∀ q < x, ∀ k < fb, m.at_ (stride * j + q * ob + k - stride) = some (above pic j (q * fb + k))) := by
    by_cases hj : j = 0
    · exact .inl ⟨hj, fun t => above_zero hj t⟩
    · refine .inr ⟨by omega, fun q hq k hk => ?_⟩
      obtain ⟨i, rfl⟩ : ∃ i, j = i + 1 := ⟨j - 1, by omega⟩
      rw [above_pos (by omega), ← hprev (by omega) q hq k hk, Nat.add_sub_cancel, Nat.mul_succ]
      congr 1
      omega
  obtain ⟨m1, e1, k1, p1⟩ := rowFirst_ok (raw := raw) (stride := stride) (fb := fb) (off := 0) (rp := j * (wb + 1) + 1) (m0 := m)
    (pic := pic j) (ab := above pic j) hu
    (fun k hk => by rw [hraw k (by omega), before_lt hk, before_lt hk]) (by omega) hsize
    (hup.imp id fun h => ⟨h.1, fun k hk => by simpa using h.2 0 hx k hk⟩)
  simp only [Nat.add_zero] at e1 p1
  obtain ⟨m2, e2, k2, p2, a2⟩ : ∃ m2, (store m1 (stride * j + fb) 255 >>= fun m => if d = 16 then store m (stride * j + fb + 1) 255 else .ok m) = .ok m2 ∧
      Keep (stride * j) m1 m2 ∧ (∀ k < fb, m2.at_ (stride * j + k) = some (pic j k)) ∧ m2.at_ (stride * j + fb) = some 255 := by
    obtain ⟨m', e1, e2, e3, e4⟩ := store_ok (m := m1) (i := stride * j + fb) 255 (by rw [k1.1]; omega)
    have kk : Keep (stride * j) m1 m' := ⟨e2, fun a ha => e4 a (by omega)⟩
    have pp : ∀ k < fb, m'.at_ (stride * j + k) = some (pic j k) := fun k hk => by rw [e4 _ (by omega), p1 k hk]
    rw [e1, Outcome.bind_ok]
    rcases hd with ⟨rfl, rfl⟩ | ⟨rfl, rfl⟩
    · exact ⟨m', by rw [if_neg (by omega)], kk, pp, e3⟩
    · obtain ⟨m'', f1, f2, f3, f4⟩ := store_ok (m := m') (i := stride * j + fb + 1) 255 (by rw [e2, k1.1]; omega)
      exact ⟨m'', by rw [if_pos rfl, f1], ⟨f2.trans e2, fun a ha => by rw [f4 a (by omega), kk.2 a ha]⟩,
        fun k hk => by rw [f4 _ (by omega), pp k hk], by rw [f4 _ (by omega), e3]⟩
  have k12 := k1.trans k2
  obtain ⟨m3, e3, k3, p3⟩ := rowAlpha_ok (raw := raw) (stride := stride) (fb := fb) (ob := ob) (x := x)
    (rp := j * (wb + 1) + 1 + fb) (m0 := m2) (pic := pic j) (ab := above pic j) hu
    (fun i hi k hk => by
      rw [show j * (wb + 1) + 1 + fb + i * fb + k = j * (wb + 1) + 1 + ((i + 1) * fb + k) by ring,
        hraw _ (hin _ (by omega) k hk), show (i + 1) * fb + k = fb + (i * fb + k) by ring, before_ge, before_ge])
    hpos (by omega) hx hst (by rw [k12.1]; exact hsize) p2 a2
    (hup.imp id fun h => ⟨h.1, fun q hq k hk => by
      have hle : stride ≤ stride * j := Nat.le_mul_of_pos_right _ h.1
      have : q * ob + ob ≤ stride := by rw [hst, ← Nat.succ_mul]; exact Nat.mul_le_mul_right _ hq
      rw [k12.2 _ (by omega), h.2 q hq k hk]⟩)
  have k13 := k12.trans k3
  obtain ⟨m4, e4, k4, p4⟩ : ∃ m4, (if d = 16 then loop x (fun i m => store m (stride * j + i * ob + fb + 1) 255) m3 else .ok m3) = .ok m4 ∧
      Keep (stride * j) m3 m4 ∧ ∀ q < x, (∀ k < fb, m4.at_ (stride * j + q * ob + k) = some (pic j (q * fb + k))) ∧
        ∀ b < bytes, m4.at_ (stride * j + q * ob + fb + b) = some 255 := by
    rcases hd with ⟨rfl, rfl⟩ | ⟨rfl, rfl⟩
    · refine ⟨m3, by rw [if_neg (by omega)], Keep.refl _ _, fun q hq => ⟨(p3 q hq).1, fun b hb => ?_⟩⟩
      obtain rfl : b = 0 := by omega
      exact (p3 q hq).2
    · obtain ⟨m4, e4, k4, p4⟩ := loop_inv (s := m3) (n := x) (f := fun i m => store m (stride * j + i * ob + fb + 1) 255)
        (fun i m => Keep (stride * j) m3 m ∧ ∀ q < x, (∀ k < fb, m.at_ (stride * j + q * ob + k) = some (pic j (q * fb + k))) ∧
          m.at_ (stride * j + q * ob + fb) = some 255 ∧ (q < i → m.at_ (stride * j + q * ob + fb + 1) = some 255))
        ⟨Keep.refl _ _, fun q hq => ⟨(p3 q hq).1, (p3 q hq).2, fun h => by omega⟩⟩ (by
          intro i hi m' ⟨km, pm⟩
          have hlt : i * ob + ob ≤ stride := by rw [hst, ← Nat.succ_mul]; exact Nat.mul_le_mul_right _ hi
          obtain ⟨m'', f1, f2, f3, f4⟩ := store_ok (m := m') (i := stride * j + i * ob + fb + 1) 255 (by rw [km.1, k13.1]; omega)
          have hsep : ∀ q k, k ≤ fb → stride * j + q * ob + k ≠ stride * j + i * ob + fb + 1 := by
            intro q k hk he
            rcases Nat.lt_trichotomy q i with h | h | h
            · have : q * ob + ob ≤ i * ob := by rw [← Nat.succ_mul]; exact Nat.mul_le_mul_right _ h
              omega
            · subst h; omega
            · have : i * ob + ob ≤ q * ob := by rw [← Nat.succ_mul]; exact Nat.mul_le_mul_right _ h
              omega
          refine ⟨m'', f1, ⟨f2.trans km.1, fun a ha => by rw [f4 a (by omega), km.2 a ha]⟩, fun q hq => ⟨fun k hk => ?_, ?_, fun h => ?_⟩⟩
          · rw [f4 _ (hsep q k (by omega))]; exact (pm q hq).1 k hk
          · rw [f4 _ (hsep q fb (by omega))]; exact (pm q hq).2.1
          · by_cases hqi : q = i
            · rw [hqi]; exact f3
            · have hne : stride * j + q * ob + fb + 1 ≠ stride * j + i * ob + fb + 1 := by
                intro he
                have : q * ob = i * ob := by omega
                exact hqi (Nat.eq_of_mul_eq_mul_right (by omega) this)
              rw [f4 _ hne]; exact (pm q hq).2.2 (by omega))
      refine ⟨m4, by rw [if_pos rfl]; exact e4, k4, fun q hq => ⟨(p4 q hq).1, fun b hb => ?_⟩⟩
      rcases (by omega : b = 0 ∨ b = 1) with rfl | rfl
      · exact (p4 q hq).2.1
      · exact (p4 q hq).2.2 hq
  refine ⟨m4, ?_, k13.trans k4, p4⟩
  have hd8 : ¬ d < 8 := by omega
  simp only [row, hbytes, hstride, hwb, hob1, hfb, if_neg hd8]
  rw [get_ok hrow, Outcome.bind_ok, if_neg (by omega), if_neg (by omega), hu.2, Outcome.bind_ok, e1, Outcome.bind_ok,
    if_pos ⟨by omega, by omega⟩, e2, Outcome.bind_ok, if_neg (by omega), if_neg (by simp), e3, Outcome.bind_ok, e4, Outcome.bind_ok]
  congr 2
  rw [Nat.succ_mul]
  omega

end Verif.Png
