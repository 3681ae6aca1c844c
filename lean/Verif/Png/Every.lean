import Verif.Png.Image

/-! # Which data are a picture -/

namespace Verif.Png

theorem loopFrom_add {σ : Type} (f : Nat → σ → Outcome σ) : ∀ (a b i : Nat) (s : σ),
    loopFrom f (a + b) i s = loopFrom f a i s >>= loopFrom f b (i + a)
  | 0, b, i, s => by rw [Nat.zero_add, loopFrom, Outcome.bind_ok, Nat.add_zero]
  | a + 1, b, i, s => by
    rw [show a + 1 + b = a + b + 1 by omega, loopFrom, loopFrom]
    cases h : f i s with
    | ok v => rw [Outcome.bind_ok, Outcome.bind_ok, loopFrom_add f a b (i + 1) v, show i + 1 + a = i + (a + 1) by omega]
    | _ => rfl

/-- the bytes of a scanline from the filtered ones -/
def undo (bpp f : Nat) (up r : Nat → UInt8) (t : Nat) : UInt8 :=
  r t + UInt8.ofNat (predict f (if _h : bpp = 0 ∨ t < bpp then 0 else (undo bpp f up r (t - bpp)).toNat) (up t).toNat (before bpp up t))
termination_by t
decreasing_by omega

/-- all scanlines -/
def undoAll (bpp wb : Nat) (raw : List UInt8) : Nat → Nat → UInt8
  | 0 => undo bpp (raw.getD 0 0).toNat (fun _ => 0) (fun t => raw.getD (1 + t) 0)
  | j + 1 => undo bpp (raw.getD ((j + 1) * (wb + 1)) 0).toNat (undoAll bpp wb raw j) (fun t => raw.getD ((j + 1) * (wb + 1) + 1 + t) 0)

theorem undo_eq {bpp : Nat} (h : 0 < bpp) (f : Nat) (up r : Nat → UInt8) (t : Nat) :
    undo bpp f up r t = r t + UInt8.ofNat (predict f (before bpp (undo bpp f up r) t) (up t).toNat (before bpp up t)) := by
  rw [undo]
  congr 3
  rw [before]
  by_cases ht : t < bpp
  · rw [dif_pos (.inr ht), if_pos ht]
  · rw [dif_neg (by omega), if_neg ht]

/-- the scanlines of any data long enough -/
theorem undoAll_eq {bpp wb : Nat} (h : 0 < bpp) (raw : List UInt8) (j t : Nat) :
    undoAll bpp wb raw j t = raw.getD (j * (wb + 1) + 1 + t) 0 + UInt8.ofNat (predict (raw.getD (j * (wb + 1)) 0).toNat
      (before bpp (undoAll bpp wb raw j) t) (above (undoAll bpp wb raw) j t).toNat (before bpp (above (undoAll bpp wb raw) j) t)) := by
  cases j with
  | zero =>
    rw [undoAll, undo_eq h, above, if_pos rfl]
    simp only [Nat.zero_mul, Nat.zero_add]
  | succ j =>
    rw [undoAll, undo_eq h, above, if_neg (by omega), Nat.add_sub_cancel]

theorem filtered_exists {bpp wb y : Nat} (h : 0 < bpp) {raw : List UInt8}
    (hlen : (wb + 1) * y ≤ raw.length) (hf : ∀ j < y, (raw.getD (j * (wb + 1)) 0).toNat ≤ 4) :
    Filtered bpp wb y (undoAll bpp wb raw) raw := by
  intro j hj
  have hle : j * (wb + 1) + (wb + 1) ≤ (wb + 1) * y := by
    rw [← Nat.succ_mul, Nat.mul_comm (wb + 1) y]; exact Nat.mul_le_mul_right _ hj
  have hget : ∀ i < raw.length, raw[i]? = some (raw.getD i 0) := fun i hi => by
    rw [List.getD_eq_getElem?_getD, List.getElem?_eq_getElem hi]; rfl
  refine ⟨raw.getD (j * (wb + 1)) 0, hf j hj, hget _ (by omega), fun t ht => ?_⟩
  rw [hget _ (by omega), undoAll_eq h]
  congr 1
  rw [UInt8.add_sub_cancel]

theorem Filtered.filters {bpp wb y : Nat} {pic : Nat → Nat → UInt8} {raw : List UInt8} (h : Filtered bpp wb y pic raw) :
    ∀ j < y, (raw.getD (j * (wb + 1)) 0).toNat ≤ 4 := by
  intro j hj
  obtain ⟨f, f1, f2, _⟩ := h j hj
  rw [List.getD_eq_getElem?_getD, f2]
  exact f1

/-- what is asked of the numbers of a picture -/
structure Sizes (n outN x y d : Nat) : Prop where
  hn : 0 < n
  hx : 0 < x
  hd : d = 1 ∨ d = 2 ∨ d = 4 ∨ d = 8 ∨ d = 16
  hout : outN = n ∨ outN = n + 1
  hnd : d < 8 → n * d ≤ 8
  hal : d < 8 → outN = n + 1 → n = 1 ∨ n = 3
  hsz : x * y * (outN * (if d = 16 then 2 else 1)) < 2 ^ 31
  hline : n * x * d + 7 < 2 ^ 31

/-- the rows run through -/
theorem rows_run {n outN x y y' d : Nat} {raw : List UInt8} {pic : Nat → Nat → UInt8} {m0 : Buf} (h : Sizes n outN x y d)
    (hF : Filtered (pixelBytes n d) (lineBytes n x d) y' pic raw)
    (hsize : x * y' * (outN * (if d = 16 then 2 else 1)) ≤ m0.size) :
    ∃ m, loop y' (row raw n outN x d) (m0, 0) = .ok (m, y' * (lineBytes n x d + 1)) := by
  have hd := h.hd
  have hn := h.hn
  have hx := h.hx
  have hout := h.hout
  have hnx : 0 < n * x := Nat.mul_pos hn hx
  rcases (by omega : d < 8 ∨ d = 8 ∨ d = 16) with h8 | h8
  · have hp : pixelBytes n d = 1 := by
      have := h.hnd h8
      have : 0 < n * d := Nat.mul_pos hn (by omega)
      rw [pixelBytes]; omega
    have hb1 : (if d = 16 then 2 else 1) = 1 := if_neg (by omega)
    rw [hb1, Nat.mul_one] at hsize
    have hwx : lineBytes n x d ≤ x := by
      rw [lineBytes, Nat.div_le_iff_le_mul_add_pred (by decide), show n * x * d = x * (n * d) by ring]
      have := Nat.mul_le_mul_left x (h.hnd h8)
      omega
    have hwpos : 0 < lineBytes n x d := by
      rw [lineBytes]
      have : 0 < n * x * d := Nat.mul_pos hnx (by omega)
      omega
    have hxo : x ≤ x * outN := Nat.le_mul_of_pos_right _ (by omega)
    rw [hp] at hF
    obtain ⟨m1, e1, _⟩ := rows_same (raw := raw) (n := n) (outN := outN) (x := x) (y := y') (d := d) (wb := lineBytes n x d) (fb := 1)
      (off := x * outN - lineBytes n x d) (stride := x * outN) (width := lineBytes n x d) (bytes := 1) (pic := pic)
      (m0 := m0) hb1 (widthBytes_eq n x d) (by rw [Nat.mul_one]) (fun j => if_pos h8) (if_pos h8)
      (fun h => absurd h8 h) (if_pos h8) (by omega) (by omega) (.inl h8) (by omega) (by omega) hF
      (by rw [show x * outN * y' = x * y' * outN by ring]; exact hsize)
    exact ⟨m1, e1⟩
  · obtain ⟨bytes, hbytes⟩ : ∃ b, b = if d = 16 then 2 else 1 := ⟨_, rfl⟩
    have hdb : d = 8 ∧ bytes = 1 ∨ d = 16 ∧ bytes = 2 := by rcases h8 with rfl | rfl <;> simp [hbytes]
    rw [pixelBytes_mul h8, lineBytes_mul h8, ← hbytes] at hF
    rw [← hbytes] at hsize
    have hw : widthBytes n x d = x * (n * bytes) := by rw [widthBytes_eq, lineBytes_mul h8, hbytes]
    have hfb : 0 < n * bytes := Nat.mul_pos hn (by omega)
    have hwf : n * bytes + (x - 1) * (n * bytes) = x * (n * bytes) := by
      obtain ⟨i, rfl⟩ : ∃ i, x = i + 1 := ⟨x - 1, by omega⟩
      simp only [Nat.add_sub_cancel, Nat.succ_mul]; omega
    rw [lineBytes_mul h8, ← hbytes]
    rcases hout with rfl | rfl
    · obtain ⟨m1, e1, _⟩ := rows_same (raw := raw) (n := outN) (outN := outN) (x := x) (y := y') (d := d) (wb := x * (outN * bytes))
        (fb := outN * bytes) (off := 0) (stride := x * (outN * bytes)) (width := x) (bytes := bytes) (pic := pic) (m0 := m0)
        hbytes.symm hw (by ring) (fun j => if_neg (by omega)) (if_neg (by omega)) (fun _ => rfl) (if_neg (by omega)) hwf hfb (.inr rfl)
        (by omega) (by omega) hF (by rw [show x * (outN * bytes) * y' = x * y' * (outN * bytes) by ring]; exact hsize)
      exact ⟨m1, e1⟩
    · obtain ⟨m1, e1, _⟩ := rows_alpha (raw := raw) (n := n) (x := x) (y := y') (d := d) (wb := x * (n * bytes))
        (fb := n * bytes) (ob := n * bytes + bytes) (stride := x * (n * bytes + bytes)) (bytes := bytes) (pic := pic) (m0 := m0)
        hdb hw rfl rfl rfl hwf hfb hx hF
        (by rw [show x * (n * bytes + bytes) * y' = x * y' * ((n + 1) * bytes) by ring]; exact hsize)
      exact ⟨m1, e1⟩

/-- the number of bytes needed does not wrap -/
theorem need_lt {n outN x y d : Nat} (h : Sizes n outN x y d) : (lineBytes n x d + 1) * y < 2 ^ 32 := by
  have hsz := h.hsz
  obtain ⟨bytes, hb⟩ : ∃ b, b = if d = 16 then 2 else 1 := ⟨_, rfl⟩
  rw [← hb] at hsz
  have hw : lineBytes n x d ≤ x * (outN * bytes) := by
    have hd := h.hd
    have hd8 : d ≤ 8 * bytes := by rw [hb]; split <;> omega
    have hno : n ≤ outN := by have := h.hout; omega
    rw [lineBytes, Nat.div_le_iff_le_mul_add_pred (by decide)]
    have h1 : n * x * d ≤ n * x * (8 * bytes) := Nat.mul_le_mul_left _ hd8
    have h2 : n * x * (8 * bytes) ≤ outN * x * (8 * bytes) := Nat.mul_le_mul_right _ (Nat.mul_le_mul_right _ hno)
    have h3 : outN * x * (8 * bytes) = 8 * (x * (outN * bytes)) := by ring
    omega
  have h1 : (lineBytes n x d + 1) * y ≤ (x * (outN * bytes) + 1) * y := Nat.mul_le_mul_right _ (by omega)
  have h2 : (x * (outN * bytes) + 1) * y = x * y * (outN * bytes) + y := by ring
  have h3 : y ≤ x * y * (outN * bytes) := by
    have : 0 < x * (outN * bytes) := Nat.mul_pos h.hx (Nat.mul_pos (by have := h.hout; have := h.hn; omega) (by rw [hb]; split <;> omega))
    calc y ≤ y * (x * (outN * bytes)) := Nat.le_mul_of_pos_right _ this
      _ = x * y * (outN * bytes) := by ring
  omega

/-- too few bytes -/
theorem createRaw_short {room n outN x y d : Nat} {raw : List UInt8} (color : Nat) (h : Sizes n outN x y d)
    (hroom : x * y * (outN * (if d = 16 then 2 else 1)) ≤ room) (hlen : raw.length < (lineBytes n x d + 1) * y) :
    createRaw room raw n outN x y d color = .throws "not enough pixels" := by
  simp only [createRaw]
  have := h.hout
  have := h.hline
  have := need_lt h
  rw [if_neg (by omega), mallocMad3, if_pos ⟨h.hsz, hroom⟩]
  simp only
  rw [if_neg (by omega), widthBytes_eq, Nat.mod_eq_of_lt this, if_pos hlen]

/-- a filter that there is not -/
theorem createRaw_filter {room n outN x y d : Nat} {raw : List UInt8} (color : Nat) (h : Sizes n outN x y d)
    (hroom : x * y * (outN * (if d = 16 then 2 else 1)) ≤ room) (hlen : (lineBytes n x d + 1) * y ≤ raw.length) {j : Nat} (hj : j < y)
    (hbad : 4 < (raw.getD (j * (lineBytes n x d + 1)) 0).toNat) :
    createRaw room raw n outN x y d color = .throws "invalid filter" := by
  -- the first one
  induction j using Nat.strong_induction_on with
  | _ j ih =>
    by_cases hex : ∃ i < j, 4 < (raw.getD (i * (lineBytes n x d + 1)) 0).toNat
    · obtain ⟨i, hi, hb⟩ := hex
      exact ih i hi (by omega) hb
    · have hle : (lineBytes n x d + 1) * j + (lineBytes n x d + 1) ≤ (lineBytes n x d + 1) * y := by
        rw [← Nat.mul_succ]; exact Nat.mul_le_mul_left _ hj
      have hpb : 0 < pixelBytes n d := by
        have : 0 < n * d := Nat.mul_pos h.hn (by have := h.hd; omega)
        rw [pixelBytes]; omega
      have hF := filtered_exists (y := j) (wb := lineBytes n x d) hpb (raw := raw) (by omega) (fun i hi => by
        by_contra hc
        exact hex ⟨i, hi, by omega⟩)
      obtain ⟨m, hm⟩ := rows_run (m0 := fresh (x * y * (outN * (if d = 16 then 2 else 1)))) h hF (by
        rw [fresh]
        exact Nat.mul_le_mul_right _ (Nat.mul_le_mul_left _ (by omega)))
      have := h.hout
      have := h.hline
      simp only [createRaw]
      rw [if_neg (by omega), mallocMad3, if_pos ⟨h.hsz, hroom⟩]
      simp only
      rw [if_neg (by omega), widthBytes_eq, Nat.mod_eq_of_lt (need_lt h), if_neg (by omega), loop,
        show y = j + (y - j - 1 + 1) by omega, loopFrom_add, ← show y = j + (y - j - 1 + 1) by omega]
      rw [loop] at hm
      rw [hm, Outcome.bind_ok, loopFrom]
      have hget : get raw (j * (lineBytes n x d + 1)) = .ok (raw.getD (j * (lineBytes n x d + 1)) 0) := by
        have hlt : j * (lineBytes n x d + 1) < raw.length := by rw [Nat.mul_comm]; omega
        apply get_ok
        rw [List.getD_eq_getElem?_getD, List.getElem?_eq_getElem hlt]; rfl
      have hrow : row raw n outN x d (0 + j) (m, j * (lineBytes n x d + 1)) = .throws "invalid filter" := by
        simp only [row]
        rw [hget, Outcome.bind_ok, if_pos hbad]
      rw [hrow]
      rfl

/-- the scanlines of a picture: long enough and with the five filters -/
theorem scans_iff {n d x y : Nat} (hn : 0 < n) (hd : 0 < d) (raw : List UInt8) :
    (∃ px, Scans n d x y px raw) ↔
      (lineBytes n x d + 1) * y ≤ raw.length ∧ ∀ j < y, (raw.getD (j * (lineBytes n x d + 1)) 0).toNat ≤ 4 := by
  constructor
  · rintro ⟨px, pic, h, _⟩
    exact ⟨h.length, h.filters⟩
  · rintro ⟨h1, h2⟩
    have hpb : 0 < pixelBytes n d := by
      have : 0 < n * d := Nat.mul_pos hn hd
      rw [pixelBytes]; omega
    exact ⟨_, _, filtered_exists hpb h1 h2, fun _ _ _ _ _ _ => rfl⟩

/-- what is not the scanlines of a picture is refused -/
theorem createRaw_refuses {room n outN x y d : Nat} {raw : List UInt8} (color : Nat) (h : Sizes n outN x y d)
    (hroom : x * y * (outN * (if d = 16 then 2 else 1)) ≤ room) (hno : ¬ ∃ px, Scans n d x y px raw) :
    ∃ e, createRaw room raw n outN x y d color = .throws e := by
  rw [scans_iff h.hn (by have := h.hd; omega)] at hno
  by_cases hlen : (lineBytes n x d + 1) * y ≤ raw.length
  · have : ¬ ∀ j < y, (raw.getD (j * (lineBytes n x d + 1)) 0).toNat ≤ 4 := fun hc => hno ⟨hlen, hc⟩
    simp only [not_forall, Nat.not_le] at this
    obtain ⟨j, hj, hb⟩ := this
    exact ⟨_, createRaw_filter color h hroom hlen hj hb⟩
  · exact ⟨_, createRaw_short color h hroom (by omega)⟩

/-- the scanlines of a picture give its samples -/
theorem createRaw_scans {room n outN x y d : Nat} {raw : List UInt8} {px : Nat → Nat → Nat → Nat} (color : Nat) (h : Sizes n outN x y d)
    (hroom : x * y * (outN * (if d = 16 then 2 else 1)) ≤ room) (hs : Scans n d x y px raw) :
    ∃ m, createRaw room raw n outN x y d color = .ok m ∧ m.size = x * y * (outN * (if d = 16 then 2 else 1)) ∧
      ∀ j < y, ∀ i < x, ∀ c < outN, sampleAt m d ((j * x + i) * outN + c) =
        .ok (if c < n then shown color d (px j i c) else top d) := by
  obtain ⟨pic, hF, hp⟩ := hs
  obtain ⟨m, h1, h2, h3⟩ := createRaw_ok color h.hn h.hx h.hd h.hout h.hnd h.hal h.hsz hroom h.hline hF
  refine ⟨m, h1, h2, fun j hj i hi c hc => ?_⟩
  rw [h3 j hj i hi c hc]
  by_cases hcn : c < n
  · rw [if_pos hcn, if_pos hcn, hp j hj i hi c hcn]
  · rw [if_neg hcn, if_neg hcn]

end Verif.Png
