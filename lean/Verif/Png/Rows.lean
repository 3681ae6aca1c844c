import Verif.Png.Spec
import Verif.Png.Mem
import Mathlib.Tactic.Ring
import Mathlib.Tactic.Linarith

/-! # Undoing the filters of a row -/

namespace Verif.Png

theorem paeth_eq (a b c : Nat) : paeth a b c = nearest a b c := by
  simp only [paeth, nearest]
  rw [show (a : Int) + b - c - a = b - c by ring, show (a : Int) + b - c - b = a - c by ring,
    show (a : Int) + b - c - c = a + b - 2 * c by ring]

theorem nearest_left (a : Nat) : nearest a 0 0 = a := by simp [nearest]

theorem nearest_up (b : Nat) : nearest 0 b 0 = b := by
  simp only [nearest]
  split
  · rename_i h; simp at h; omega
  · simp

theorem shr1 (v : UInt8) : v >>> 1 = UInt8.ofNat (v.toNat / 2) := by
  apply UInt8.toNat_inj.mp
  have := v.toNat_lt
  simp [UInt8.toNat_shiftRight, Nat.shiftRight_eq_div_pow]
  omega

/-- the filter used in a row: another one in the first -/
def Used (j f f' : Nat) : Prop := f ≤ 4 ∧ (if j = 0 then Inflate.tab firstRowFilter f else .ok f) = .ok f'

theorem used (j : Nat) {f : Nat} (h : f ≤ 4) : ∃ f', Used j f f' := by
  by_cases hj : j = 0
  · have h5 : f < firstRowFilter.length := by simp [firstRowFilter]; omega
    exact ⟨firstRowFilter[f], h, by rw [if_pos hj, Inflate.tab, List.getElem?_eq_getElem h5]⟩
  · exact ⟨f, h, by rw [if_neg hj]⟩

/-- the row above as it is read -/
def Up (j : Nat) (o : Outcome UInt8) (v : UInt8) : Prop := (j = 0 ∧ v = 0) ∨ (0 < j ∧ o = .ok v)

theorem Used.zero {j f f' : Nat} (h : Used j f f') (hj : j = 0) : f' = firstRowFilter[f]?.getD 9 := by
  have h2 := h.2
  rw [if_pos hj, Inflate.tab] at h2
  split at h2
  · cases h2; rename_i h; rw [h]; rfl
  · cases h2

theorem Used.pos {j f f' : Nat} (h : Used j f f') (hj : 0 < j) : f' = f := by
  have h2 := h.2
  rw [if_neg (by omega)] at h2
  cases h2; rfl

theorem reconFirst_ok {j f f' : Nat} (h : Used j f f') (r : UInt8) {b : Outcome UInt8} {bv : UInt8} (hb : Up j b bv) :
    reconFirst f' r b = .ok (r + UInt8.ofNat (predict f 0 bv.toNat 0)) := by
  have h4 := h.1
  rcases hb with ⟨hj, rfl⟩ | ⟨hj, rfl⟩
  · rw [h.zero hj]
    match f with
    | 0 => simp [firstRowFilter, reconFirst, predict]
    | 1 => simp [firstRowFilter, reconFirst, predict]
    | 2 => simp [firstRowFilter, reconFirst, predict]
    | 3 => simp [firstRowFilter, reconFirst, predict]
    | 4 => simp [firstRowFilter, reconFirst, predict, nearest_left]
    | f + 5 => omega
  · rw [h.pos hj]
    match f with
    | 0 => simp [reconFirst, predict]
    | 1 => simp [reconFirst, predict]
    | 2 => simp [reconFirst, predict]
    | 3 => simp [reconFirst, predict, shr1]
    | 4 => simp [reconFirst, predict, paeth_eq, nearest_up]
    | f + 5 => omega

theorem recon_ok {j f f' : Nat} (h : Used j f f') (r av : UInt8) {b c : Outcome UInt8} {bv cv : UInt8} (hb : Up j b bv)
    (hc : Up j c cv) :
    recon f' r (.ok av) b c = .ok (r + UInt8.ofNat (predict f av.toNat bv.toNat cv.toNat)) := by
  have h4 := h.1
  rcases hb with ⟨hj, rfl⟩ | ⟨hj, rfl⟩
  · rw [h.zero hj]
    obtain rfl : cv = 0 := by rcases hc with ⟨_, h⟩ | ⟨h, _⟩; exacts [h, by omega]
    match f with
    | 0 => simp [firstRowFilter, recon, predict]
    | 1 => simp [firstRowFilter, recon, predict]
    | 2 => simp [firstRowFilter, recon, predict]
    | 3 => simp [firstRowFilter, recon, predict, shr1]
    | 4 => simp [firstRowFilter, recon, predict, nearest_left, paeth_eq]
    | f + 5 => omega
  · rw [h.pos hj]
    obtain rfl : c = .ok cv := by rcases hc with ⟨h, _⟩ | ⟨_, h⟩; exacts [by omega, h]
    match f with
    | 0 => simp [recon, predict]
    | 1 => simp [recon, predict]
    | 2 => simp [recon, predict]
    | 3 => simp [recon, predict, Nat.shiftRight_eq_div_pow, Nat.add_comm]
    | 4 => simp [recon, predict, paeth_eq]
    | f + 5 => omega

/-- nothing below `lo` has changed -/
def Keep (lo : Nat) (m0 m : Buf) : Prop := m.size = m0.size ∧ ∀ a < lo, m.at_ a = m0.at_ a

theorem Keep.refl (lo : Nat) (m : Buf) : Keep lo m m := ⟨rfl, fun _ _ => rfl⟩

theorem Keep.trans {lo : Nat} {m m1 m2 : Buf} (h1 : Keep lo m m1) (h2 : Keep lo m1 m2) : Keep lo m m2 :=
  ⟨h2.1.trans h1.1, fun a h => (h2.2 a h).trans (h1.2 a h)⟩

theorem rowFirst_ok {raw : List UInt8} {stride j f f' fb off rp : Nat} {m0 : Buf} {pic ab : Nat → UInt8} (h : Used j f f')
    (hraw : ∀ k < fb, raw[rp + k]? = some (pic k - UInt8.ofNat (predict f 0 (ab k).toNat 0)))
    (hfit : off + fb ≤ stride) (hsize : stride * j + stride ≤ m0.size)
    (hup : (j = 0 ∧ ∀ t, ab t = 0) ∨ (0 < j ∧ ∀ k < fb, m0.at_ (stride * j + off + k - stride) = some (ab k))) :
    ∃ m, rowFirst raw stride f' fb (stride * j + off) rp m0 = .ok m ∧ Keep (stride * j) m0 m ∧
      ∀ k < fb, m.at_ (stride * j + off + k) = some (pic k) := by
  obtain ⟨m, h1, h2⟩ := loop_inv (s := m0) (n := fb)
    (f := fun k m => get raw (rp + k) >>= fun r => reconFirst f' r (load m (stride * j + off + k - stride)) >>= fun v =>
      store m (stride * j + off + k) v)
    (fun i m => Keep (stride * j) m0 m ∧ ∀ k < i, m.at_ (stride * j + off + k) = some (pic k))
    ⟨Keep.refl _ _, fun k hk => by omega⟩ (by
      intro k hk m ⟨hm, hp⟩
      have hu : Up j (load m (stride * j + off + k - stride)) (ab k) := by
        rcases hup with ⟨hj, h0⟩ | ⟨hj, h0⟩
        · exact .inl ⟨hj, h0 k⟩
        · have hle : stride ≤ stride * j := Nat.le_mul_of_pos_right _ hj
          refine .inr ⟨hj, load_ok (by rw [hm.1]; omega) ?_⟩
          rw [hm.2 _ (by omega), h0 k hk]
      obtain ⟨m', e1, e2, e3, e4⟩ := store_ok (m := m) (i := stride * j + off + k) (pic k) (by rw [hm.1]; omega)
      refine ⟨m', ?_, ⟨by rw [e2, hm.1], fun a ha => by rw [e4 a (by omega), hm.2 a ha]⟩, fun q hq => ?_⟩
      · simp only [get_ok (hraw k hk), Outcome.bind_ok, reconFirst_ok h _ hu, UInt8.sub_add_cancel]
        exact e1
      · by_cases hqk : q = k
        · rw [hqk]; exact e3
        · rw [e4 _ (by omega), hp q (by omega)])
  exact ⟨m, h1, h2.1, h2.2⟩

theorem rowSame_ok {raw : List UInt8} {stride j f f' fb nk off rp : Nat} {m0 : Buf} {pic ab : Nat → UInt8} (h : Used j f f')
    (hraw : ∀ k < nk, raw[rp + k]? =
      some (pic (fb + k) - UInt8.ofNat (predict f (pic k).toNat (ab (fb + k)).toNat (ab k).toNat)))
    (hfb : 0 < fb) (hfit : off + fb + nk ≤ stride) (hsize : stride * j + stride ≤ m0.size)
    (hfirst : ∀ k < fb, m0.at_ (stride * j + off + k) = some (pic k))
    (hup : (j = 0 ∧ ∀ t, ab t = 0) ∨ (0 < j ∧ ∀ k < fb + nk, m0.at_ (stride * j + off + k - stride) = some (ab k))) :
    ∃ m, rowSame raw stride f' fb nk (stride * j + off + fb) rp m0 = .ok m ∧ Keep (stride * j) m0 m ∧
      ∀ k < fb + nk, m.at_ (stride * j + off + k) = some (pic k) := by
  obtain ⟨m, h1, h2⟩ := loop_inv (s := m0) (n := nk)
    (f := fun k m => get raw (rp + k) >>= fun r =>
      recon f' r (load m (stride * j + off + fb + k - fb)) (load m (stride * j + off + fb + k - stride))
        (load m (stride * j + off + fb + k - stride - fb)) >>= fun v => store m (stride * j + off + fb + k) v)
    (fun i m => Keep (stride * j) m0 m ∧ ∀ k < fb + i, m.at_ (stride * j + off + k) = some (pic k))
    ⟨Keep.refl _ _, fun k hk => hfirst k (by omega)⟩ (by
      intro k hk m ⟨hm, hp⟩
      have hu : Up j (load m (stride * j + off + fb + k - stride)) (ab (fb + k)) ∧
          Up j (load m (stride * j + off + fb + k - stride - fb)) (ab k) := by
        rcases hup with ⟨hj, h0⟩ | ⟨hj, h0⟩
        · exact ⟨.inl ⟨hj, h0 _⟩, .inl ⟨hj, h0 _⟩⟩
        · have hle : stride ≤ stride * j := Nat.le_mul_of_pos_right _ hj
          refine ⟨.inr ⟨hj, load_ok (by rw [hm.1]; omega) ?_⟩, .inr ⟨hj, load_ok (by rw [hm.1]; omega) ?_⟩⟩
          · rw [hm.2 _ (by omega), Nat.add_assoc _ fb k, h0 _ (by omega)]
          · rw [hm.2 _ (by omega), show stride * j + off + fb + k - stride - fb = stride * j + off + k - stride by omega,
              h0 _ (by omega)]
      have hl : load m (stride * j + off + fb + k - fb) = .ok (pic k) :=
        load_ok (by rw [hm.1]; omega) (by rw [show stride * j + off + fb + k - fb = stride * j + off + k by omega]; exact hp k (by omega))
      obtain ⟨m', e1, e2, e3, e4⟩ := store_ok (m := m) (i := stride * j + off + fb + k) (pic (fb + k)) (by rw [hm.1]; omega)
      refine ⟨m', ?_, ⟨by rw [e2, hm.1], fun a ha => by rw [e4 a (by omega), hm.2 a ha]⟩, fun q hq => ?_⟩
      · simp only [get_ok (hraw k hk), Outcome.bind_ok]
        rw [hl, recon_ok h _ _ hu.1 hu.2, Outcome.bind_ok, UInt8.sub_add_cancel]
        exact e1
      · by_cases hqk : q = fb + k
        · rw [hqk, ← Nat.add_assoc]; exact e3
        · rw [e4 _ (by omega), hp q (by omega)])
  exact ⟨m, h1, h2.1, h2.2⟩

theorem rowAlpha_ok {raw : List UInt8} {stride j f f' fb ob x rp : Nat} {m0 : Buf} {pic ab : Nat → UInt8} (h : Used j f f')
    (hraw : ∀ i < x - 1, ∀ k < fb, raw[rp + i * fb + k]? =
      some (pic ((i + 1) * fb + k) - UInt8.ofNat (predict f (pic (i * fb + k)).toNat (ab ((i + 1) * fb + k)).toNat (ab (i * fb + k)).toNat)))
    (hfb : 0 < fb) (hob : fb < ob) (hx : 0 < x) (hst : stride = x * ob) (hsize : stride * j + stride ≤ m0.size)
    (hfirst : ∀ k < fb, m0.at_ (stride * j + k) = some (pic k)) (halpha : m0.at_ (stride * j + fb) = some 255)
    (hup : (j = 0 ∧ ∀ t, ab t = 0) ∨
      (0 < j ∧ ∀ q < x, ∀ k < fb, m0.at_ (stride * j + q * ob + k - stride) = some (ab (q * fb + k)))) :
    ∃ m, rowAlpha raw stride f' fb ob x (stride * j + ob) rp m0 = .ok m ∧ Keep (stride * j) m0 m ∧
      ∀ q < x, (∀ k < fb, m.at_ (stride * j + q * ob + k) = some (pic (q * fb + k))) ∧
        m.at_ (stride * j + q * ob + fb) = some 255 := by
  obtain ⟨m, h1, h2⟩ := loop_inv (s := m0) (n := x - 1)
    (f := fun i m =>
      loop fb (fun k m =>
        get raw (rp + i * fb + k) >>= fun r =>
          recon f' r (load m (stride * j + ob + i * ob + k - ob)) (load m (stride * j + ob + i * ob + k - stride))
              (load m (stride * j + ob + i * ob + k - stride - ob)) >>= fun v =>
            store m (stride * j + ob + i * ob + k) v) m >>= fun m => store m (stride * j + ob + i * ob + fb) 255)
    (fun i m => Keep (stride * j) m0 m ∧
      ∀ q ≤ i, (∀ k < fb, m.at_ (stride * j + q * ob + k) = some (pic (q * fb + k))) ∧
        m.at_ (stride * j + q * ob + fb) = some 255)
    ⟨Keep.refl _ _, fun q hq => by
      obtain rfl : q = 0 := by omega
      simp only [Nat.zero_mul, Nat.zero_add, Nat.add_zero]
      exact ⟨hfirst, halpha⟩⟩ (by
      intro i hi m ⟨hm, hp⟩
      have hlast : i * ob + ob + ob ≤ stride := by
        rw [hst, show i * ob + ob + ob = (i + 2) * ob by ring]
        exact Nat.mul_le_mul_right _ (by omega)
      have hmono : ∀ q ≤ i, q * ob ≤ i * ob := fun q hq => Nat.mul_le_mul_right _ hq
      obtain ⟨m1, h3, hm1, hp1, hn1⟩ := loop_inv (s := m) (n := fb)
        (f := fun k m =>
          get raw (rp + i * fb + k) >>= fun r =>
            recon f' r (load m (stride * j + ob + i * ob + k - ob)) (load m (stride * j + ob + i * ob + k - stride))
                (load m (stride * j + ob + i * ob + k - stride - ob)) >>= fun v =>
              store m (stride * j + ob + i * ob + k) v)
        (fun s m => Keep (stride * j) m0 m ∧
          (∀ q ≤ i, (∀ k < fb, m.at_ (stride * j + q * ob + k) = some (pic (q * fb + k))) ∧
            m.at_ (stride * j + q * ob + fb) = some 255) ∧
          ∀ k < s, m.at_ (stride * j + ob + i * ob + k) = some (pic ((i + 1) * fb + k)))
        ⟨hm, hp, fun k hk => by omega⟩ (by
          intro k hk m ⟨hm, hp, hn⟩
          have hu : Up j (load m (stride * j + ob + i * ob + k - stride)) (ab ((i + 1) * fb + k)) ∧
              Up j (load m (stride * j + ob + i * ob + k - stride - ob)) (ab (i * fb + k)) := by
            rcases hup with ⟨hj, h0⟩ | ⟨hj, h0⟩
            · exact ⟨.inl ⟨hj, h0 _⟩, .inl ⟨hj, h0 _⟩⟩
            · have hle : stride ≤ stride * j := Nat.le_mul_of_pos_right _ hj
              refine ⟨.inr ⟨hj, load_ok (by rw [hm.1]; omega) ?_⟩, .inr ⟨hj, load_ok (by rw [hm.1]; omega) ?_⟩⟩
              · rw [hm.2 _ (by omega), show stride * j + ob + i * ob + k = stride * j + (i + 1) * ob + k by ring,
                  h0 _ (by omega) _ hk]
              · rw [hm.2 _ (by omega), show stride * j + ob + i * ob + k - stride - ob = stride * j + i * ob + k - stride by omega,
                  h0 _ (by omega) _ hk]
          have hl : load m (stride * j + ob + i * ob + k - ob) = .ok (pic (i * fb + k)) := by
            refine load_ok (by rw [hm.1]; omega) ?_
            rw [show stride * j + ob + i * ob + k - ob = stride * j + i * ob + k by omega]
            exact (hp i (by omega)).1 k hk
          obtain ⟨m', e1, e2, e3, e4⟩ :=
            store_ok (m := m) (i := stride * j + ob + i * ob + k) (pic ((i + 1) * fb + k)) (by rw [hm.1]; omega)
          refine ⟨m', ?_, ⟨by rw [e2, hm.1], fun a ha => by rw [e4 a (by omega), hm.2 a ha]⟩, fun q hq => ⟨fun k' hk' => ?_, ?_⟩,
            fun q hq => ?_⟩
          · simp only [get_ok (hraw i hi k hk), Outcome.bind_ok]
            rw [hl, recon_ok h _ _ hu.1 hu.2, Outcome.bind_ok, UInt8.sub_add_cancel]
            exact e1
          · have := hmono q hq
            rw [e4 _ (by omega)]; exact (hp q hq).1 k' hk'
          · have := hmono q hq
            rw [e4 _ (by omega)]; exact (hp q hq).2
          · by_cases hqk : q = k
            · rw [hqk]; exact e3
            · rw [e4 _ (by omega), hn q (by omega)])
      obtain ⟨m', e1, e2, e3, e4⟩ := store_ok (m := m1) (i := stride * j + ob + i * ob + fb) 255 (by rw [hm1.1]; omega)
      refine ⟨m', ?_, ⟨by rw [e2, hm1.1], fun a ha => by rw [e4 a (by omega), hm1.2 a ha]⟩, fun q hq => ?_⟩
      · simp only [h3, Outcome.bind_ok]
        exact e1
      · by_cases hqi : q = i + 1
        · subst hqi
          rw [show stride * j + (i + 1) * ob = stride * j + ob + i * ob by ring]
          exact ⟨fun k hk => by rw [e4 _ (by omega), hn1 k hk], e3⟩
        · have := hmono q (by omega)
          refine ⟨fun k hk => ?_, ?_⟩
          · rw [e4 _ (by omega)]; exact (hp1 q (by omega)).1 k hk
          · rw [e4 _ (by omega)]; exact (hp1 q (by omega)).2)
  exact ⟨m, h1, h2.1, fun q hq => h2.2 q (by omega)⟩

end Verif.Png
