import Verif.Png.Raw

/-! # Samples in bytes -/

namespace Verif.Png

/-- the bits of the `k`-th sample of `d` bits in a byte -/
def chunk (v d k : Nat) : Nat := (List.range d).foldl (fun a i => 2 * a + v / 2 ^ (7 - (k * d + i)) % 2) 0

theorem foldl_range_congr {f g : Nat → Nat → Nat} : ∀ (d a : Nat), (∀ a, ∀ i < d, f a i = g a i) →
    (List.range d).foldl f a = (List.range d).foldl g a
  | 0, _, _ => rfl
  | d + 1, a, h => by
    rw [List.range_succ, List.foldl_append, List.foldl_append, foldl_range_congr d a fun a i hi => h a i (by omega)]
    exact h _ d (by omega)

theorem sampleOf_chunk {d : Nat} (hd : d = 1 ∨ d = 2 ∨ d = 4 ∨ d = 8) (r : Nat → UInt8) (s : Nat) :
    sampleOf r d s = chunk (r (s / (8 / d))).toNat d (s % (8 / d)) := by
  rw [sampleOf, chunk]
  apply foldl_range_congr
  intro a i hi
  rw [bitOf]
  rcases hd with rfl | rfl | rfl | rfl
  · rw [show (s * 1 + i) / 8 = s / (8 / 1) by omega, show (s * 1 + i) % 8 = s % (8 / 1) * 1 + i by omega]
  · rw [show (s * 2 + i) / 8 = s / (8 / 2) by omega, show (s * 2 + i) % 8 = s % (8 / 2) * 2 + i by omega]
  · rw [show (s * 4 + i) / 8 = s / (8 / 4) by omega, show (s * 4 + i) % 8 = s % (8 / 4) * 4 + i by omega]
  · rw [show (s * 8 + i) / 8 = s / (8 / 8) by omega, show (s * 8 + i) % 8 = s % (8 / 8) * 8 + i by omega]

theorem chunk8 : ∀ v < 256, chunk v 8 0 = v := by decide +kernel

theorem sampleOf8 (r : Nat → UInt8) (s : Nat) : sampleOf r 8 s = (r s).toNat := by
  rw [sampleOf_chunk (by omega), show 8 / 8 = 1 from rfl, Nat.mod_one, Nat.div_one, chunk8 _ (UInt8.toNat_lt _)]

theorem foldl_bits (f : Nat → Nat) : ∀ (d a : Nat), (List.range d).foldl (fun a i => 2 * a + f i) a =
    a * 2 ^ d + (List.range d).foldl (fun a i => 2 * a + f i) 0
  | 0, a => by simp
  | d + 1, a => by
    rw [List.range_succ, List.foldl_append, List.foldl_append, foldl_bits f d a]
    simp only [List.foldl_cons, List.foldl_nil, Nat.pow_succ]
    ring

theorem sampleOf16 (r : Nat → UInt8) (s : Nat) : sampleOf r 16 s = (r (2 * s)).toNat * 256 + (r (2 * s + 1)).toNat := by
  have h1 : (List.range 8).foldl (fun v k => 2 * v + bitOf r (s * 16 + k)) 0 = (r (2 * s)).toNat := by
    rw [← sampleOf8 r (2 * s), sampleOf]
    apply foldl_range_congr
    intro a i hi
    rw [show s * 16 + i = 2 * s * 8 + i by omega]
  have h2 : (List.range 8).foldl (fun v k => 2 * v + bitOf r (s * 16 + 8 + k)) 0 = (r (2 * s + 1)).toNat := by
    rw [← sampleOf8 r (2 * s + 1), sampleOf]
    apply foldl_range_congr
    intro a i hi
    rw [show s * 16 + 8 + i = (2 * s + 1) * 8 + i by omega]
  rw [sampleOf, show 16 = 8 + 8 from rfl, List.range_add, List.foldl_append, List.foldl_map]
  simp only [Nat.reduceAdd, h1]
  rw [← h2, foldl_bits (fun k => bitOf r (s * 16 + (8 + k)))]
  simp only [Nat.add_assoc]
  rfl

theorem sampleOf_lt (r : Nat → UInt8) (d s : Nat) : sampleOf r d s < 2 ^ d := by
  have : ∀ d, (List.range d).foldl (fun v k => 2 * v + bitOf r (s * d + k)) 0 < 2 ^ d := by
    intro d
    have key : ∀ (f : Nat → Nat), (∀ i, f i < 2) → ∀ d, (List.range d).foldl (fun v k => 2 * v + f k) 0 < 2 ^ d := by
      intro f hf d
      induction d with
      | zero => simp
      | succ d ih =>
        rw [List.range_succ, List.foldl_append, List.foldl_cons, List.foldl_nil, Nat.pow_succ]
        have := hf d
        omega
    exact key (fun k => bitOf r (s * d + k)) (fun i => by rw [bitOf]; exact Nat.mod_lt _ (by decide)) d
  exact this d

theorem cuts1 : ∀ k < 8, ∃ c, (cuts 1)[k]? = some c ∧ ∀ v < 256, (v >>> c.1) &&& c.2 = chunk v 1 k := by
  have h : ∀ k < 8, (match (cuts 1)[k]? with
    | some c => (List.range 256).all fun v => (v >>> c.1) &&& c.2 == chunk v 1 k
    | none => false) = true := by decide +kernel
  intro k hk
  have := h k hk
  split at this
  · rename_i c hc; exact ⟨c, hc, fun v hv => by simpa using List.all_eq_true.mp this v (List.mem_range.mpr hv)⟩
  · cases this

theorem cuts2 : ∀ k < 4, ∃ c, (cuts 2)[k]? = some c ∧ ∀ v < 256, (v >>> c.1) &&& c.2 = chunk v 2 k := by
  have h : ∀ k < 4, (match (cuts 2)[k]? with
    | some c => (List.range 256).all fun v => (v >>> c.1) &&& c.2 == chunk v 2 k
    | none => false) = true := by decide +kernel
  intro k hk
  have := h k hk
  split at this
  · rename_i c hc; exact ⟨c, hc, fun v hv => by simpa using List.all_eq_true.mp this v (List.mem_range.mpr hv)⟩
  · cases this

theorem cuts4 : ∀ k < 2, ∃ c, (cuts 4)[k]? = some c ∧ ∀ v < 256, (v >>> c.1) &&& c.2 = chunk v 4 k := by
  have h : ∀ k < 2, (match (cuts 4)[k]? with
    | some c => (List.range 256).all fun v => (v >>> c.1) &&& c.2 == chunk v 4 k
    | none => false) = true := by decide +kernel
  intro k hk
  have := h k hk
  split at this
  · rename_i c hc; exact ⟨c, hc, fun v hv => by simpa using List.all_eq_true.mp this v (List.mem_range.mpr hv)⟩
  · cases this

theorem cuts_ok {d : Nat} (hd : d = 1 ∨ d = 2 ∨ d = 4) (r : Nat → UInt8) (s : Nat) :
    ∃ shift mask, (cuts d)[s % (8 / d)]? = some (shift, mask) ∧
      ((r (s / (8 / d))).toNat >>> shift) &&& mask = sampleOf r d s := by
  rw [sampleOf_chunk (by omega)]
  have hv := (r (s / (8 / d))).toNat_lt
  rcases hd with rfl | rfl | rfl
  · obtain ⟨c, h1, h2⟩ := cuts1 (s % (8 / 1)) (Nat.mod_lt _ (by decide)); exact ⟨c.1, c.2, h1, h2 _ hv⟩
  · obtain ⟨c, h1, h2⟩ := cuts2 (s % (8 / 2)) (Nat.mod_lt _ (by decide)); exact ⟨c.1, c.2, h1, h2 _ hv⟩
  · obtain ⟨c, h1, h2⟩ := cuts4 (s % (8 / 4)) (Nat.mod_lt _ (by decide)); exact ⟨c.1, c.2, h1, h2 _ hv⟩

/-- nothing outside `[lo, hi)` has changed -/
def Only (lo hi : Nat) (m0 m : Buf) : Prop := m.size = m0.size ∧ ∀ a, a < lo ∨ hi ≤ a → m.at_ a = m0.at_ a

theorem Only.trans {lo hi : Nat} {m m1 m2 : Buf} (h1 : Only lo hi m m1) (h2 : Only lo hi m1 m2) : Only lo hi m m2 :=
  ⟨h2.1.trans h1.1, fun a h => (h2.2 a h).trans (h1.2 a h)⟩

theorem Only.mono {lo hi lo' hi' : Nat} {m m1 : Buf} (h1 : Only lo hi m m1) (hl : lo' ≤ lo) (hh : hi ≤ hi') : Only lo' hi' m m1 :=
  ⟨h1.1, fun a h => h1.2 a (by omega)⟩

/-- the samples of a row: what is read is never overwritten before -/
theorem unpack_ok {d scale K X cur : Nat} {m0 : Buf} {r : Nat → UInt8} (hd : d = 1 ∨ d = 2 ∨ d = 4) (hX : K ≤ X)
    (hsize : cur + X ≤ m0.size)
    (hin : ∀ t < (K * d + 7) / 8, m0.at_ (cur + (X - (K * d + 7) / 8) + t) = some (r t)) :
    ∃ m, unpack d scale K cur (cur + (X - (K * d + 7) / 8)) m0 = .ok m ∧ Only cur (cur + K) m0 m ∧
      ∀ s < K, m.at_ (cur + s) = some (UInt8.ofNat (scale * sampleOf r d s)) := by
  obtain ⟨m, h1, h2⟩ := loop_inv (s := m0) (n := K)
    (f := fun s m =>
      match (cuts d)[s % (8 / d)]? with
      | none => .ub
      | some (shift, mask) =>
        load m (cur + (X - (K * d + 7) / 8) + s / (8 / d)) >>= fun b =>
          store m (cur + s) (UInt8.ofNat (scale * ((b.toNat >>> shift) &&& mask))))
    (fun i m => Only cur (cur + K) m0 m ∧ (∀ s < i, m.at_ (cur + s) = some (UInt8.ofNat (scale * sampleOf r d s))) ∧
      (i < K → ∀ t < (K * d + 7) / 8, i / (8 / d) ≤ t → m.at_ (cur + (X - (K * d + 7) / 8) + t) = some (r t)))
    ⟨⟨rfl, fun _ _ => rfl⟩, fun s hs => by omega, fun _ t ht _ => hin t ht⟩ (by
      intro i hi m ⟨hm, hs, ht⟩
      obtain ⟨shift, mask, c1, c2⟩ := cuts_ok hd r i
      have hil : i / (8 / d) < (K * d + 7) / 8 := by rcases hd with rfl | rfl | rfl <;> omega
      have hle : (K * d + 7) / 8 ≤ K := by rcases hd with rfl | rfl | rfl <;> omega
      obtain ⟨m', e1, e2, e3, e4⟩ :=
        store_ok (m := m) (i := cur + i) (UInt8.ofNat (scale * sampleOf r d i)) (by rw [hm.1]; omega)
      refine ⟨m', ?_, ⟨e2.trans hm.1, fun a ha => by rw [e4 a (by omega), hm.2 a ha]⟩, fun s h => ?_, fun hK t h1 h2 => ?_⟩
      · simp only [c1]
        rw [load_ok (by rw [hm.1]; omega) (ht hi _ hil (Nat.le_refl _)), Outcome.bind_ok, c2]
        exact e1
      · by_cases h' : s = i
        · rw [h']; exact e3
        · rw [e4 _ (by omega), hs s (by omega)]
      · have hne : cur + (X - (K * d + 7) / 8) + t ≠ cur + i := by rcases hd with rfl | rfl | rfl <;> omega
        rw [e4 _ hne, ht hi t h1]
        refine Nat.le_trans (Nat.div_le_div_right (by omega)) h2)
  exact ⟨m, h1, h2.1, h2.2.1⟩

/-- alpha behind the samples, from the last pixel on -/
theorem insertAlpha_ok {n x cur : Nat} {m0 : Buf} {v : Nat → UInt8} (hn : n = 1 ∨ n = 3) (hsize : cur + x * (n + 1) ≤ m0.size)
    (hin : ∀ s < x * n, m0.at_ (cur + s) = some (v s)) :
    ∃ m, insertAlpha n x cur m0 = .ok m ∧ Only cur (cur + x * (n + 1)) m0 m ∧
      ∀ q < x, (∀ c < n, m.at_ (cur + (q * (n + 1) + c)) = some (v (q * n + c))) ∧ m.at_ (cur + (q * (n + 1) + n)) = some 255 := by
  rcases hn with rfl | rfl
  · obtain ⟨m, h1, h2⟩ := loop_inv (s := m0) (n := x)
      (f := fun i m =>
        let q := x - 1 - i
        store m (cur + q * 2 + 1) 255 >>= fun m => load m (cur + q) >>= fun v => store m (cur + q * 2) v)
      (fun i m => Only cur (cur + x * 2) m0 m ∧ (∀ s < x - i, m.at_ (cur + s) = some (v s)) ∧
        ∀ q < x, x - i ≤ q → m.at_ (cur + q * 2) = some (v q) ∧ m.at_ (cur + q * 2 + 1) = some 255)
      ⟨⟨rfl, fun _ _ => rfl⟩, fun s hs => hin s (by omega), fun q hq h => by omega⟩ (by
        intro i hi m ⟨hm, hs, ha⟩
        obtain ⟨q, hq⟩ : ∃ q, q = x - 1 - i := ⟨_, rfl⟩
        obtain ⟨m1, e1, e2, e3, e4⟩ := store_ok (m := m) (i := cur + q * 2 + 1) 255 (by rw [hm.1]; omega)
        have hl : load m1 (cur + q) = .ok (v q) := by
          refine load_ok (by rw [e2, hm.1]; omega) ?_
          rw [e4 _ (by omega), hs q (by omega)]
        obtain ⟨m2, f1, f2, f3, f4⟩ := store_ok (m := m1) (i := cur + q * 2) (v q) (by rw [e2, hm.1]; omega)
        refine ⟨m2, ?_, ⟨by rw [f2, e2, hm.1], fun a h => by rw [f4 _ (by omega), e4 _ (by omega), hm.2 a h]⟩,
          fun s h => by rw [f4 _ (by omega), e4 _ (by omega), hs s (by omega)], fun p hp h => ?_⟩
        · simp only [← hq, e1, Outcome.bind_ok, hl]
          exact f1
        · by_cases hpq : p = q
          · subst hpq
            exact ⟨f3, by rw [f4 _ (by omega), e3]⟩
          · rw [f4 _ (by omega), e4 _ (by omega), f4 _ (by omega), e4 _ (by omega)]
            exact ha p hp (by omega))
    refine ⟨m, ?_, h2.1, fun q hq => ⟨fun c hc => ?_, ?_⟩⟩
    · rw [insertAlpha, if_pos rfl]; exact h1
    · obtain rfl : c = 0 := by omega
      simpa [Nat.add_assoc] using (h2.2.2 q hq (by omega)).1
    · have := (h2.2.2 q hq (by omega)).2
      rw [Nat.add_assoc] at this
      exact this
  · obtain ⟨m, h1, h2⟩ := loop_inv (s := m0) (n := x)
      (f := fun i m =>
        let q := x - 1 - i
        store m (cur + q * 4 + 3) 255 >>= fun m =>
          load m (cur + q * 3 + 2) >>= fun v => store m (cur + q * 4 + 2) v >>= fun m =>
            load m (cur + q * 3 + 1) >>= fun v => store m (cur + q * 4 + 1) v >>= fun m =>
              load m (cur + q * 3) >>= fun v => store m (cur + q * 4) v)
      (fun i m => Only cur (cur + x * 4) m0 m ∧ (∀ s < (x - i) * 3, m.at_ (cur + s) = some (v s)) ∧
        ∀ q < x, x - i ≤ q → m.at_ (cur + q * 4) = some (v (q * 3)) ∧ m.at_ (cur + q * 4 + 1) = some (v (q * 3 + 1)) ∧
          m.at_ (cur + q * 4 + 2) = some (v (q * 3 + 2)) ∧ m.at_ (cur + q * 4 + 3) = some 255)
      ⟨⟨rfl, fun _ _ => rfl⟩, fun s hs => hin s (by omega), fun q hq h => by omega⟩ (by
        intro i hi m ⟨hm, hs, ha⟩
        obtain ⟨q, hq⟩ : ∃ q, q = x - 1 - i := ⟨_, rfl⟩
        obtain ⟨m1, e1, e2, e3, e4⟩ := store_ok (m := m) (i := cur + q * 4 + 3) 255 (by rw [hm.1]; omega)
        have hl2 : load m1 (cur + q * 3 + 2) = .ok (v (q * 3 + 2)) := by
          refine load_ok (by rw [e2, hm.1]; omega) ?_
          rw [e4 _ (by omega), Nat.add_assoc, hs _ (by omega)]
        obtain ⟨m2, f1, f2, f3, f4⟩ := store_ok (m := m1) (i := cur + q * 4 + 2) (v (q * 3 + 2)) (by rw [e2, hm.1]; omega)
        have hl1 : load m2 (cur + q * 3 + 1) = .ok (v (q * 3 + 1)) := by
          refine load_ok (by rw [f2, e2, hm.1]; omega) ?_
          rw [f4 _ (by omega), e4 _ (by omega), Nat.add_assoc, hs _ (by omega)]
        obtain ⟨m3, g1, g2, g3, g4⟩ := store_ok (m := m2) (i := cur + q * 4 + 1) (v (q * 3 + 1)) (by rw [f2, e2, hm.1]; omega)
        have hl0 : load m3 (cur + q * 3) = .ok (v (q * 3)) := by
          refine load_ok (by rw [g2, f2, e2, hm.1]; omega) ?_
          rw [g4 _ (by omega), f4 _ (by omega), e4 _ (by omega), hs _ (by omega)]
        obtain ⟨m4, k1, k2, k3, k4⟩ := store_ok (m := m3) (i := cur + q * 4) (v (q * 3)) (by rw [g2, f2, e2, hm.1]; omega)
        refine ⟨m4, ?_, ⟨by rw [k2, g2, f2, e2, hm.1], fun a h => by
            rw [k4 _ (by omega), g4 _ (by omega), f4 _ (by omega), e4 _ (by omega), hm.2 a h]⟩,
          fun s h => by rw [k4 _ (by omega), g4 _ (by omega), f4 _ (by omega), e4 _ (by omega), hs s (by omega)], fun p hp h => ?_⟩
        · simp only [← hq, e1, Outcome.bind_ok, hl2, f1, hl1, g1, hl0]
          exact k1
        · by_cases hpq : p = q
          · subst hpq
            exact ⟨k3, by rw [k4 _ (by omega), g3], by rw [k4 _ (by omega), g4 _ (by omega), f3],
              by rw [k4 _ (by omega), g4 _ (by omega), f4 _ (by omega), e3]⟩
          · have := ha p hp (by omega)
            refine ⟨?_, ?_, ?_, ?_⟩
            · rw [k4 _ (by omega), g4 _ (by omega), f4 _ (by omega), e4 _ (by omega)]; exact this.1
            · rw [k4 _ (by omega), g4 _ (by omega), f4 _ (by omega), e4 _ (by omega)]; exact this.2.1
            · rw [k4 _ (by omega), g4 _ (by omega), f4 _ (by omega), e4 _ (by omega)]; exact this.2.2.1
            · rw [k4 _ (by omega), g4 _ (by omega), f4 _ (by omega), e4 _ (by omega)]; exact this.2.2.2)
    refine ⟨m, ?_, h2.1, fun q hq => ?_⟩
    · rw [insertAlpha, if_neg (by omega), if_neg (by omega)]; exact h1
    · have := h2.2.2 q hq (by omega)
      refine ⟨fun c hc => ?_, by have := this.2.2.2; rw [Nat.add_assoc] at this; exact this⟩
      rcases (by omega : c = 0 ∨ c = 1 ∨ c = 2) with rfl | rfl | rfl
      · exact this.1
      · have := this.2.1; rw [Nat.add_assoc] at this; exact this
      · have := this.2.2.1; rw [Nat.add_assoc] at this; exact this

end Verif.Png
