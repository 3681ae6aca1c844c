import Verif.Png.Inter
import Verif.Png.FileModel
import Verif.Png.FileSpec

/-! # Transparency, palettes, and 16 bits made to 8 -/

namespace Verif.Png

theorem sample8 {m : Buf} {d q v : Nat} (hd : d ≠ 16) (h : sampleAt m d q = .ok v) : ∃ b : UInt8, load m q = .ok b ∧ b.toNat = v := by
  rw [sampleAt, if_neg hd] at h
  cases hl : load m q with
  | ok b => rw [hl, Outcome.bind_ok] at h; cases h; exact ⟨b, rfl, rfl⟩
  | _ => rw [hl] at h; cases h

theorem store_sample {m : Buf} {d q : Nat} (b : UInt8) (hd : d ≠ 16) (hq : q < m.size) :
    ∃ m', store m q b = .ok m' ∧ m'.size = m.size ∧ sampleAt m' d q = .ok b.toNat ∧ ∀ q', q' ≠ q → sampleAt m' d q' = sampleAt m d q' := by
  obtain ⟨m', h1, h2, h3, h4⟩ := store_ok b hq
  refine ⟨m', h1, h2, ?_, fun q' hq' => ?_⟩
  · rw [sampleAt, if_neg hd, load_ok (by omega) h3]; rfl
  · simp only [sampleAt, if_neg hd, load, h2, h4 q' hq']

theorem store16_sample {m : Buf} {q v : Nat} (hv : v < 65536) (hq : 2 * q + 1 < m.size) :
    ∃ m', store16 m q v = .ok m' ∧ m'.size = m.size ∧ sampleAt m' 16 q = .ok v ∧ ∀ q', q' ≠ q → sampleAt m' 16 q' = sampleAt m 16 q' := by
  obtain ⟨m1, h1, h2, h3, h4⟩ := store_ok (m := m) (i := 2 * q) (UInt8.ofNat v) (by omega)
  obtain ⟨m2, k1, k2, k3, k4⟩ := store_ok (m := m1) (i := 2 * q + 1) (UInt8.ofNat (v / 256)) (by omega)
  refine ⟨m2, by rw [store16, h1, Outcome.bind_ok, k1], by omega, ?_, fun q' hq' => ?_⟩
  · rw [sampleAt, if_pos rfl, load16, load_ok (v := UInt8.ofNat v) (by omega) (by rw [k4 _ (by omega), h3]), Outcome.bind_ok, load_ok (by omega) k3,
      Outcome.bind_ok]
    simp only [UInt8.toNat_ofNat']
    congr 1
    omega
  · simp only [sampleAt, if_pos, load16, load, k2, h2]
    rw [k4 _ (by omega), k4 _ (by omega), h4 _ (by omega), h4 _ (by omega)]

/-- the samples once the first `k` pixels have their alpha -/
def keyed (s : Nat → Nat) (outN k hi : Nat) (tc : List Nat) (q : Nat) : Nat :=
  if q % outN + 1 = outN ∧ q / outN < k then (if (List.range (outN - 1)).map (fun c => s (q / outN * outN + c)) = tc then 0 else hi) else s q

theorem keyed_zero (s : Nat → Nat) (outN hi : Nat) (tc : List Nat) (q : Nat) : keyed s outN 0 hi tc q = s q :=
  if_neg fun h => Nat.not_lt_zero _ h.2

theorem keyed_last (s : Nat → Nat) {outN i k : Nat} (h : i < k) (hi : Nat) (tc : List Nat) (ho : 0 < outN) :
    keyed s outN k hi tc (i * outN + (outN - 1)) = if (List.range (outN - 1)).map (fun c => s (i * outN + c)) = tc then 0 else hi := by
  have h1 : (i * outN + (outN - 1)) / outN = i := by
    rw [Nat.mul_comm, Nat.mul_add_div ho, Nat.div_eq_of_lt (by omega), Nat.add_zero]
  have h2 : (i * outN + (outN - 1)) % outN = outN - 1 := by
    rw [Nat.mul_comm, Nat.mul_add_mod, Nat.mod_eq_of_lt (by omega)]
  rw [keyed, if_pos ⟨by omega, by omega⟩, h1]

theorem keyed_other (s : Nat → Nat) {outN i c : Nat} (k hi : Nat) (tc : List Nat) (h : c + 1 < outN) : keyed s outN k hi tc (i * outN + c) = s (i * outN + c) := by
  have h2 : (i * outN + c) % outN = c := by
    rw [Nat.mul_comm, Nat.mul_add_mod, Nat.mod_eq_of_lt (by omega)]
  rw [keyed, if_neg (by omega)]

theorem keyed_first (s : Nat → Nat) {outN i : Nat} (k hi : Nat) (tc : List Nat) (h : 1 < outN) : keyed s outN k hi tc (i * outN) = s (i * outN) :=
  keyed_other s (c := 0) k hi tc h

theorem keyed_step (s : Nat → Nat) {outN k q : Nat} (hi : Nat) (tc : List Nat) (h : q ≠ k * outN + (outN - 1)) :
    keyed s outN (k + 1) hi tc q = keyed s outN k hi tc q := by
  by_cases h1 : q % outN + 1 = outN
  · have h2 : q / outN ≠ k := by
      rintro rfl
      have := Nat.div_add_mod q outN
      rw [Nat.mul_comm] at this
      omega
    by_cases h3 : q / outN < k
    · simp only [keyed, if_pos (show q % outN + 1 = outN ∧ q / outN < k + 1 from ⟨h1, by omega⟩),
        if_pos (show q % outN + 1 = outN ∧ q / outN < k from ⟨h1, h3⟩)]
    · rw [keyed, if_neg (by omega), keyed, if_neg (by omega)]
  · rw [keyed, if_neg (by omega), keyed, if_neg (by omega)]

theorem transparency_ok {d outN count : Nat} {m : Buf} {s : Nat → Nat} {tc : List Nat} (hd : d ≠ 16) (ho : outN = 2 ∨ outN = 4)
    (htc : tc.length + 1 = outN) (hsize : m.size = count * outN) (hs : ∀ q < count * outN, sampleAt m d q = .ok (s q))
    (ha : ∀ i < count, s (i * outN + (outN - 1)) = 255) :
    ∃ m', transparency tc count outN m = .ok m' ∧ m'.size = m.size ∧
      ∀ q < count * outN, sampleAt m' d q = .ok (keyed s outN count 255 tc q) := by
  have h0 : m.size = m.size ∧ ∀ q < count * outN, sampleAt m d q = .ok (keyed s outN 0 255 tc q) :=
    ⟨rfl, fun q hq => by rw [hs q hq, keyed_zero]⟩
  rcases ho with rfl | rfl
  · obtain ⟨t, rfl⟩ : ∃ t, tc = [t] := by
      match tc, htc with
      | [t], _ => exact ⟨t, rfl⟩
    rw [transparency, if_pos rfl]
    refine loop_inv (fun k m' => m'.size = m.size ∧ ∀ q < count * 2, sampleAt m' d q = .ok (keyed s 2 k 255 [t] q)) h0 ?_
    rintro k hk m' ⟨hm, hq⟩
    simp only [Nat.mul_comm 2 k]
    obtain ⟨b, hb1, hb2⟩ := sample8 hd (hq (k * 2) (by omega))
    rw [keyed_first s _ _ _ (by decide)] at hb2
    obtain ⟨m2, k1, k2, k3, k4⟩ := store_sample (m := m') (d := d) (q := k * 2 + 1) (if b.toNat = t then 0 else 255) hd (by omega)
    refine ⟨m2, ?_, by omega, fun q hq2 => ?_⟩
    · rw [hb1, Outcome.bind_ok, Inflate.tab, List.getElem?_cons_zero]
      simp only [Outcome.bind_ok]
      exact k1
    · by_cases hqk : q = k * 2 + 1
      · rw [hqk, k3, keyed_last s (outN := 2) (Nat.lt_succ_self k) _ _ (by decide)]
        simp only [Nat.add_one_sub_one, List.range_one, List.map_cons, Nat.add_zero, List.map_nil, List.cons.injEq, and_true, ← hb2]
        split <;> rfl
      · rw [k4 _ hqk, hq q hq2, keyed_step _ _ _ (by omega)]
  · obtain ⟨t0, t1, t2, rfl⟩ : ∃ t0 t1 t2, tc = [t0, t1, t2] := by
      match tc, htc with
      | [t0, t1, t2], _ => exact ⟨t0, t1, t2, rfl⟩
    rw [transparency, if_neg (by decide), if_pos rfl]
    refine loop_inv (fun k m' => m'.size = m.size ∧ ∀ q < count * 4, sampleAt m' d q = .ok (keyed s 4 k 255 [t0, t1, t2] q)) h0 ?_
    rintro k hk m' ⟨hm, hq⟩
    simp only [Nat.mul_comm 4 k]
    obtain ⟨b, hb1, hb2⟩ := sample8 hd (hq (k * 4) (by omega))
    obtain ⟨c, hc1, hc2⟩ := sample8 hd (hq (k * 4 + 1) (by omega))
    obtain ⟨e, he1, he2⟩ := sample8 hd (hq (k * 4 + 2) (by omega))
    rw [keyed_first s _ _ _ (by decide)] at hb2
    rw [keyed_other s _ _ _ (by decide)] at hc2 he2
    rw [hb1, hc1, he1]
    simp only [Outcome.bind_ok, Inflate.tab, List.getElem?_cons_zero, List.getElem?_cons_succ]
    have hmatch : (List.range (4 - 1)).map (fun c => s (k * 4 + c)) = [t0, t1, t2] ↔ b.toNat = t0 ∧ c.toNat = t1 ∧ e.toNat = t2 := by
      rw [hb2, hc2, he2]
      simp [List.range_succ]
    by_cases hT : b.toNat = t0 ∧ c.toNat = t1 ∧ e.toNat = t2
    · rw [if_pos hT]
      obtain ⟨m2, k1, k2, k3, k4⟩ := store_sample (m := m') (d := d) (q := k * 4 + 3) 0 hd (by omega)
      refine ⟨m2, k1, by omega, fun q hq2 => ?_⟩
      by_cases hqk : q = k * 4 + 3
      · rw [hqk, k3, keyed_last s (outN := 4) (Nat.lt_succ_self k) _ _ (by decide), if_pos (hmatch.mpr hT)]
        rfl
      · rw [k4 _ hqk, hq q hq2, keyed_step _ _ _ (by omega)]
    · rw [if_neg hT]
      refine ⟨m', rfl, hm, fun q hq2 => ?_⟩
      by_cases hqk : q = k * 4 + 3
      · rw [hq q hq2, hqk, keyed_last s (outN := 4) (Nat.lt_succ_self k) _ _ (by decide), if_neg (fun h => hT (hmatch.mp h)), keyed, if_neg (by omega)]
        have := ha k hk
        rw [show k * 4 + 3 = k * 4 + (4 - 1) from rfl, this]
      · rw [hq q hq2, keyed_step _ _ _ (by omega)]

theorem sample16 {m : Buf} {q v : Nat} (h : sampleAt m 16 q = .ok v) : load16 m q = .ok v := by rwa [sampleAt, if_pos rfl] at h

theorem transparency16_ok {outN count : Nat} {m : Buf} {s : Nat → Nat} {tc : List Nat} (ho : outN = 2 ∨ outN = 4)
    (htc : tc.length + 1 = outN) (hsize : m.size = count * (outN * 2)) (hs : ∀ q < count * outN, sampleAt m 16 q = .ok (s q))
    (ha : ∀ i < count, s (i * outN + (outN - 1)) = 65535) :
    ∃ m', transparency16 tc count outN m = .ok m' ∧ m'.size = m.size ∧
      ∀ q < count * outN, sampleAt m' 16 q = .ok (keyed s outN count 65535 tc q) := by
  have h0 : m.size = m.size ∧ ∀ q < count * outN, sampleAt m 16 q = .ok (keyed s outN 0 65535 tc q) :=
    ⟨rfl, fun q hq => by rw [hs q hq, keyed_zero]⟩
  rcases ho with rfl | rfl
  · obtain ⟨t, rfl⟩ : ∃ t, tc = [t] := by
      match tc, htc with
      | [t], _ => exact ⟨t, rfl⟩
    rw [transparency16, if_pos rfl]
    refine loop_inv (fun k m' => m'.size = m.size ∧ ∀ q < count * 2, sampleAt m' 16 q = .ok (keyed s 2 k 65535 [t] q)) h0 ?_
    rintro k hk m' ⟨hm, hq⟩
    simp only [Nat.mul_comm 2 k]
    have hb1 := sample16 (hq (k * 2) (by omega))
    rw [keyed_first s _ _ _ (by decide)] at hb1
    obtain ⟨m2, k1, k2, k3, k4⟩ := store16_sample (m := m') (q := k * 2 + 1) (v := if s (k * 2) = t then 0 else 65535) (by split <;> decide) (by omega)
    refine ⟨m2, ?_, by omega, fun q hq2 => ?_⟩
    · rw [hb1, Outcome.bind_ok, Inflate.tab, List.getElem?_cons_zero]
      simp only [Outcome.bind_ok]
      exact k1
    · by_cases hqk : q = k * 2 + 1
      · rw [hqk, k3, keyed_last s (outN := 2) (Nat.lt_succ_self k) _ _ (by decide)]
        simp only [Nat.add_one_sub_one, List.range_one, List.map_cons, Nat.add_zero, List.map_nil, List.cons.injEq, and_true]
      · rw [k4 _ hqk, hq q hq2, keyed_step _ _ _ (by omega)]
  · obtain ⟨t0, t1, t2, rfl⟩ : ∃ t0 t1 t2, tc = [t0, t1, t2] := by
      match tc, htc with
      | [t0, t1, t2], _ => exact ⟨t0, t1, t2, rfl⟩
    rw [transparency16, if_neg (by decide), if_pos rfl]
    refine loop_inv (fun k m' => m'.size = m.size ∧ ∀ q < count * 4, sampleAt m' 16 q = .ok (keyed s 4 k 65535 [t0, t1, t2] q)) h0 ?_
    rintro k hk m' ⟨hm, hq⟩
    simp only [Nat.mul_comm 4 k]
    have hb1 := sample16 (hq (k * 4) (by omega))
    have hc1 := sample16 (hq (k * 4 + 1) (by omega))
    have he1 := sample16 (hq (k * 4 + 2) (by omega))
    rw [keyed_first s _ _ _ (by decide)] at hb1
    rw [keyed_other s _ _ _ (by decide)] at hc1 he1
    rw [hb1, hc1, he1]
    simp only [Outcome.bind_ok, Inflate.tab, List.getElem?_cons_zero, List.getElem?_cons_succ]
    have hmatch : (List.range (4 - 1)).map (fun c => s (k * 4 + c)) = [t0, t1, t2] ↔
        s (k * 4) = t0 ∧ s (k * 4 + 1) = t1 ∧ s (k * 4 + 2) = t2 := by
      simp [List.range_succ]
    by_cases hT : s (k * 4) = t0 ∧ s (k * 4 + 1) = t1 ∧ s (k * 4 + 2) = t2
    · rw [if_pos hT]
      obtain ⟨m2, k1, k2, k3, k4⟩ := store16_sample (m := m') (q := k * 4 + 3) (v := 0) (by decide) (by omega)
      refine ⟨m2, k1, by omega, fun q hq2 => ?_⟩
      by_cases hqk : q = k * 4 + 3
      · rw [hqk, k3, keyed_last s (outN := 4) (Nat.lt_succ_self k) _ _ (by decide), if_pos (hmatch.mpr hT)]
      · rw [k4 _ hqk, hq q hq2, keyed_step _ _ _ (by omega)]
    · rw [if_neg hT]
      refine ⟨m', rfl, hm, fun q hq2 => ?_⟩
      by_cases hqk : q = k * 4 + 3
      · rw [hq q hq2, hqk, keyed_last s (outN := 4) (Nat.lt_succ_self k) _ _ (by decide), if_neg (fun h => hT (hmatch.mp h)), keyed, if_neg (by omega)]
        have := ha k hk
        rw [show k * 4 + 3 = k * 4 + (4 - 1) from rfl, this]
      · rw [hq q hq2, keyed_step _ _ _ (by omega)]

/-- the bytes of the palette -/
theorem expandPalette_ok {room count palN : Nat} {pal : Nat → Option UInt8} {m : Buf} {s : Nat → UInt8} (h1 : count * palN < 2 ^ 31)
    (h2 : count * palN ≤ room) (hs : ∀ i < count, load m i = .ok (s i)) :
    ∃ m', expandPalette room pal count palN m = .ok m' ∧ m'.size = count * palN ∧
      ∀ i < count, ∀ k < palN, m'.at_ (palN * i + k) = pal ((s i).toNat * 4 + k) := by
  rw [expandPalette, if_neg (by omega)]
  refine loop_inv (fun j (m' : Buf) => m'.size = count * palN ∧ ∀ i < j, ∀ k < palN, m'.at_ (palN * i + k) = pal ((s i).toNat * 4 + k))
    ⟨rfl, fun i hi => absurd hi (Nat.not_lt_zero i)⟩ ?_
  rintro j hj m1 ⟨hm, hq⟩
  rw [hs j hj, Outcome.bind_ok]
  have hlt := lt_of_row (stride := palN) hj
  rw [Nat.mul_comm palN count] at hlt
  obtain ⟨m2, g1, g2, g3⟩ := loop_inv (n := palN) (s := m1) (f := fun k p => put p (palN * j + k) (pal ((s j).toNat * 4 + k)))
    (fun l (m' : Buf) => m'.size = count * palN ∧ ∀ a, m'.at_ a = if palN * j ≤ a ∧ a < palN * j + l then pal ((s j).toNat * 4 + (a - palN * j)) else m1.at_ a)
    ⟨hm, fun a => by rw [if_neg (by omega)]⟩ (by
      rintro l hl m3 ⟨k1, k2⟩
      obtain ⟨m4, e1, e2, e3, e4⟩ := put_ok (m := m3) (i := palN * j + l) (pal ((s j).toNat * 4 + l)) (by omega)
      refine ⟨m4, e1, by omega, fun a => ?_⟩
      by_cases ha : a = palN * j + l
      · rw [ha, e3, if_pos (by omega), show palN * j + l - palN * j = l by omega]
      · rw [e4 a ha, k2 a]
        by_cases h : palN * j ≤ a ∧ a < palN * j + l
        · rw [if_pos h, if_pos (by omega)]
        · rw [if_neg h, if_neg (by omega)])
  refine ⟨m2, g1, g2, fun i hi k hk => ?_⟩
  rw [g3]
  by_cases hij : i = j
  · rw [hij, if_pos (by omega), show palN * j + k - palN * j = k by omega]
  · have := lt_of_row (stride := palN) (show i < j by omega)
    rw [if_neg (by omega), hq i (by omega) k hk]

/-- 16 bits made to 8 -/
theorem convert16_ok {room : Nat} {i : Image} {s : Nat → Nat} (h : i.x * i.y * i.n ≤ room)
    (hs : ∀ q < i.x * i.y * i.n, sampleAt i.out 16 q = .ok (s q)) (hlt : ∀ q < i.x * i.y * i.n, s q < 65536) :
    ∃ m, convert16 room i = .ok { i with depth := 8, out := m } ∧ m.size = i.x * i.y * i.n ∧
      ∀ q < i.x * i.y * i.n, sampleAt m 8 q = .ok (s q / 256) := by
  rw [convert16, if_neg (by omega)]
  obtain ⟨m, g1, g2, g3⟩ := loop_inv (n := i.x * i.y * i.n) (s := fresh (i.x * i.y * i.n))
    (f := fun k m => load16 i.out k >>= fun v => store m k (UInt8.ofNat (v / 256)))
    (fun k m => m.size = i.x * i.y * i.n ∧ ∀ q < k, sampleAt m 8 q = .ok (s q / 256)) ⟨rfl, fun q hq => absurd hq (Nat.not_lt_zero q)⟩ (by
      rintro k hk m1 ⟨k1, k2⟩
      obtain ⟨m2, e1, e2, e3, e4⟩ := store_sample (m := m1) (d := 8) (q := k) (UInt8.ofNat (s k / 256)) (by decide) (by omega)
      refine ⟨m2, by rw [sample16 (hs k hk), Outcome.bind_ok, e1], by omega, fun q hq => ?_⟩
      by_cases hqk : q = k
      · have := hlt k hk
        rw [hqk, e3, UInt8.toNat_ofNat', Nat.mod_eq_of_lt (by omega)]
      · rw [e4 q hqk, k2 q (by omega)])
  exact ⟨m, by rw [g1, Outcome.bind_ok], g2, g3⟩

end Verif.Png
