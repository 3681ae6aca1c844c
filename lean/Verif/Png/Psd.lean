import Verif.Png.PsdModel
import Verif.Png.BmpLoad
import Verif.Png.Safe

/-! # Reading PSD files -/

namespace Verif.Png

/-- a number of two bytes of a file, the highest first -/
def num16 (file : List UInt8) (k : Nat) : Nat := (byteAt file k).toNat * 256 + (byteAt file (k + 1)).toNat

/-- a number of four bytes of a file, the highest first -/
def num32 (file : List UInt8) (k : Nat) : Nat := num16 file k * 65536 + num16 file (k + 2)

theorem get16_drop {file : List UInt8} {k : Nat} {s : Src} (h : s.all = file.drop k) :
    (get16 s).1 = num16 file k ∧ (get16 s).2.all = file.drop (k + 2) := by
  have h1 := get8_drop h
  have h2 := get8_drop h1.2
  refine ⟨?_, h2.2⟩
  simp only [get16, num16]
  rw [h1.1, h2.1]

theorem get32_drop {file : List UInt8} {k : Nat} {s : Src} (h : s.all = file.drop k) :
    (get32 s).1 = num32 file k ∧ (get32 s).2.all = file.drop (k + 4) := by
  have h1 := get16_drop h
  have h2 := get16_drop h1.2
  refine ⟨?_, h2.2⟩
  simp only [get32, num32]
  rw [h1.1, h2.1]

/-- channel `ch` of `m'` has the samples `v` from pixel `a` to pixel `b`, and all else is as in `m` -/
structure Put (ch a b : Nat) (v : Nat → UInt8) (m m' : Buf) : Prop where
  size : m'.size = m.size
  here : ∀ i, a ≤ i → i < b → m'.at_ (4 * i + ch) = some (v i)
  else_ : ∀ q, (∀ i, a ≤ i → i < b → q ≠ 4 * i + ch) → m'.at_ q = m.at_ q

theorem Put.nil (ch a : Nat) (v : Nat → UInt8) (m : Buf) : Put ch a a v m m :=
  ⟨rfl, fun i h1 h2 => absurd h2 (by omega), fun _ _ => rfl⟩

theorem Put.trans {ch a b c : Nat} {v : Nat → UInt8} {m m' m'' : Buf} (h1 : Put ch a b v m m') (h2 : Put ch b c v m' m'') (hab : a ≤ b) (hbc : b ≤ c) : Put ch a c v m m'' := by
  refine ⟨by rw [h2.size, h1.size], fun i hi hi' => ?_, fun q hq => ?_⟩
  · by_cases h : i < b
    · rw [h2.else_ _ (fun j hj hj' => by omega)]
      exact h1.here i hi h
    · exact h2.here i (by omega) hi'
  · rw [h2.else_ q (fun i hi hi' => hq i (by omega) hi'), h1.else_ q (fun i hi hi' => hq i hi (by omega))]

theorem Put.congr {ch a b : Nat} {v v' : Nat → UInt8} {m m' : Buf} (h : Put ch a b v m m') (hv : ∀ i, a ≤ i → i < b → v i = v' i) : Put ch a b v' m m' :=
  ⟨h.size, fun i hi hi' => by rw [← hv i hi hi']; exact h.here i hi hi', h.else_⟩

theorem psdRun_ok {ch count len total : Nat} {v : UInt8} {m : Buf} (hch : ch < 4) (hm : m.size = 4 * total) (hl : count + len ≤ total) :
    ∃ m', psdRun ch count len v m = .ok m' ∧ Put ch count (count + len) (fun _ => v) m m' := by
  refine loop_inv (P := fun (t : Nat) (m' : Buf) => Put ch count (count + t) (fun _ => v) m m') (Put.nil _ _ _ _) ?_
  rintro t ht m1 h1
  obtain ⟨m2, a1, a2, a3, a4⟩ := store_ok (m := m1) (i := 4 * (count + t) + ch) v (by rw [h1.size]; omega)
  refine ⟨m2, a1, h1.trans (b := count + t) ⟨a2, fun i hi hi' => ?_, fun q hq => ?_⟩ (by omega) (by omega)⟩
  · rw [show i = count + t by omega]; exact a3
  · exact a4 q (hq (count + t) (by omega) (by omega))

theorem psdCopy_ok {file : List UInt8} {ch count len total k : Nat} {m : Buf} {s : Src} (hs : s.all = file.drop k) (hch : ch < 4) (hm : m.size = 4 * total)
    (hl : count + len ≤ total) : ∃ m' s', psdCopy ch count len m s = .ok (m', s') ∧ Put ch count (count + len) (fun i => byteAt file (k + (i - count))) m m' ∧
      s'.all = file.drop (k + len) := by
  have := loop_inv (f := fun j (q : Buf × Src) => store q.1 (4 * (count + j) + ch) (get8 q.2).1 >>= fun m => .ok (m, (get8 q.2).2)) (n := len) (s := (m, s))
    (P := fun (t : Nat) (q : Buf × Src) => Put ch count (count + t) (fun i => byteAt file (k + (i - count))) m q.1 ∧ q.2.all = file.drop (k + t))
    ⟨Put.nil _ _ _ _, hs⟩ ?_
  · obtain ⟨⟨m', s'⟩, h0, h1, h2⟩ := this
    exact ⟨m', s', h0, h1, h2⟩
  rintro t ht ⟨m1, s1⟩ ⟨h1, h2⟩
  simp only at h1 h2
  have hg := get8_drop h2
  obtain ⟨m2, a1, a2, a3, a4⟩ := store_ok (m := m1) (i := 4 * (count + t) + ch) (get8 s1).1 (by rw [h1.size]; omega)
  refine ⟨(m2, (get8 s1).2), by simp only; rw [a1]; rfl, h1.trans (b := count + t) ⟨a2, fun i hi hi' => ?_, fun q hq => ?_⟩ (by omega) (by omega), hg.2⟩
  · rw [show i = count + t by omega]
    simp only
    rw [a3, hg.1, Nat.add_sub_cancel_left]
  · exact a4 q (hq (count + t) (by omega) (by omega))

theorem psdHigh_ok {file : List UInt8} {ch total k : Nat} {m : Buf} {s : Src} (hs : s.all = file.drop k) (hch : ch < 4) (hm : m.size = 4 * total) :
    ∃ m' s', psdHigh ch total m s = .ok (m', s') ∧ Put ch 0 total (fun i => byteAt file (k + 2 * i)) m m' ∧ s'.all = file.drop (k + 2 * total) := by
  have := loop_inv (f := fun i (q : Buf × Src) => store q.1 (4 * i + ch) (UInt8.ofNat ((get16 q.2).1 / 256)) >>= fun m => .ok (m, (get16 q.2).2)) (n := total) (s := (m, s))
    (P := fun (t : Nat) (q : Buf × Src) => Put ch 0 t (fun i => byteAt file (k + 2 * i)) m q.1 ∧ q.2.all = file.drop (k + 2 * t))
    ⟨Put.nil _ _ _ _, hs⟩ ?_
  · obtain ⟨⟨m', s'⟩, h0, h1, h2⟩ := this
    exact ⟨m', s', h0, h1, h2⟩
  rintro t ht ⟨m1, s1⟩ ⟨h1, h2⟩
  simp only at h1 h2
  have hg := get16_drop h2
  obtain ⟨m2, a1, a2, a3, a4⟩ := store_ok (m := m1) (i := 4 * t + ch) (UInt8.ofNat ((get16 s1).1 / 256)) (by rw [h1.size]; omega)
  refine ⟨(m2, (get16 s1).2), by simp only; rw [a1]; rfl, h1.trans (b := t) ⟨a2, fun i hi hi' => ?_, fun q hq => ?_⟩ (by omega) (by omega), by
    simp only; rw [hg.2]; congr 1⟩
  · rw [show i = t by omega]
    simp only
    rw [a3, hg.1]
    have : num16 file (k + 2 * t) / 256 = (byteAt file (k + 2 * t)).toNat := by
      have := (byteAt file (k + 2 * t + 1)).toNat_lt
      rw [num16]; omega
    rw [this, UInt8.ofNat_toNat]
  · exact a4 q (hq t (by omega) (by omega))

/-- `l` is what the packed bytes from `k` to `k'` stand for: a byte below 128 says how many bytes follow, one above 128 how often the next one is there, and 128
says nothing -/
inductive PackBits (file : List UInt8) : Nat → List UInt8 → Nat → Prop
  | nil (k : Nat) : PackBits file k [] k
  | noop (k : Nat) (l : List UInt8) (k' : Nat) (hl : l ≠ []) (h : byteAt file k = 128) (hp : PackBits file (k + 1) l k') : PackBits file k l k'
  | copy (k n : Nat) (l : List UInt8) (k' : Nat) (hn : n < 128) (h : (byteAt file k).toNat = n) (hp : PackBits file (k + 1 + (n + 1)) l k') :
      PackBits file k ((List.range (n + 1)).map (fun i => byteAt file (k + 1 + i)) ++ l) k'
  | run (k n : Nat) (l : List UInt8) (k' : Nat) (hn : n < 128) (h0 : 0 < n) (h : (byteAt file k).toNat = 257 - (n + 1)) (hp : PackBits file (k + 2) l k') :
      PackBits file k (List.replicate (n + 1) (byteAt file (k + 1)) ++ l) k'

theorem psdRle_ok {file : List UInt8} {ch total : Nat} (hch : ch < 4) {k k' : Nat} {l : List UInt8} (hp : PackBits file k l k') :
    ∀ {f count : Nat} {m : Buf} {s : Src}, s.all = file.drop k → m.size = 4 * total → count + l.length = total → s.all.length + l.length + 1 ≤ f →
      ∃ m' s', psdRle f ch total count m s = .ok (some (m', s')) ∧ Put ch count total (fun i => l.getD (i - count) 0) m m' ∧ s'.all = file.drop k' := by
  induction hp with
  | nil k =>
    intro f count m s hs hm hc hf
    obtain ⟨f, rfl⟩ : ∃ g, f = g + 1 := ⟨f - 1, by omega⟩
    simp only [List.length_nil, Nat.add_zero] at hc
    subst hc
    rw [psdRle, if_pos (le_refl _)]
    exact ⟨m, s, rfl, Put.nil _ _ _ _, hs⟩
  | noop k l k' hl h hp ih =>
    intro f count m s hs hm hc hf
    obtain ⟨f, rfl⟩ : ∃ g, f = g + 1 := ⟨f - 1, by omega⟩
    have hpos : 0 < l.length := List.length_pos_iff.2 hl
    have hg := get8_drop hs
    rw [psdRle, if_neg (by omega)]
    simp only
    rw [hg.1, h, if_pos (by decide)]
    have hk : k < file.length := by
      by_contra hk
      rw [byteAt, List.getD_eq_getElem?_getD, List.getElem?_eq_none (by omega)] at h
      exact absurd h (by decide)
    refine ih hg.2 hm hc ?_
    rw [hs, List.length_drop] at hf
    rw [hg.2, List.length_drop]
    omega
  | copy k n l k' hn h hp ih =>
    intro f count m s hs hm hc hf
    obtain ⟨f, rfl⟩ : ∃ g, f = g + 1 := ⟨f - 1, by omega⟩
    simp only [List.length_append, List.length_map, List.length_range] at hc hf
    have hg := get8_drop hs
    rw [psdRle, if_neg (by omega)]
    simp only
    rw [hg.1, h, if_neg (by omega), if_pos hn, if_neg (by omega)]
    obtain ⟨m1, s1, a1, a2, a3⟩ := psdCopy_ok (len := n + 1) hg.2 hch hm (show count + (n + 1) ≤ total by omega)
    rw [a1, Outcome.bind_ok]
    obtain ⟨m2, s2, b1, b2, b3⟩ := ih (f := f) (count := count + (n + 1)) a3 (by rw [a2.size, hm]) (by omega) (by
      rw [hs, List.length_drop] at hf
      rw [a3, List.length_drop]
      omega)
    refine ⟨m2, s2, b1, ?_, b3⟩
    refine (a2.congr fun i hi hi' => ?_).trans (b2.congr fun i hi hi' => ?_) (by omega) (by omega)
    · rw [List.getD_eq_getElem?_getD, List.getElem?_append_left (by simp; omega), List.getElem?_map, List.getElem?_range (by omega)]
      rfl
    · simp only [List.getD_eq_getElem?_getD]
      rw [List.getElem?_append_right (by simp; omega)]
      simp only [List.length_map, List.length_range]
      rw [show i - (count + (n + 1)) = i - count - (n + 1) by omega]
  | run k n l k' hn h0 h hp ih =>
    intro f count m s hs hm hc hf
    obtain ⟨f, rfl⟩ : ∃ g, f = g + 1 := ⟨f - 1, by omega⟩
    simp only [List.length_append, List.length_replicate] at hc hf
    have hg := get8_drop hs
    have hg2 := get8_drop hg.2
    rw [psdRle, if_neg (by omega)]
    simp only
    rw [hg.1, h, if_neg (by omega), if_neg (by omega), if_neg (by omega), show 257 - (257 - (n + 1)) = n + 1 by omega]
    obtain ⟨m1, a1, a2⟩ := psdRun_ok (count := count) (len := n + 1) (v := (get8 (get8 s).2).1) hch hm (show count + (n + 1) ≤ total by omega)
    rw [a1, Outcome.bind_ok]
    obtain ⟨m2, s2, b1, b2, b3⟩ := ih (f := f) (count := count + (n + 1)) (by rw [hg2.2]) (by rw [a2.size, hm]) (by omega) (by
      rw [hs, List.length_drop] at hf
      rw [hg2.2, List.length_drop]
      omega)
    refine ⟨m2, s2, b1, ?_, b3⟩
    refine (a2.congr fun i hi hi' => ?_).trans (b2.congr fun i hi hi' => ?_) (by omega) (by omega)
    · rw [hg2.1, List.getD_eq_getElem?_getD, List.getElem?_append_left (by simp; omega), List.getElem?_replicate, if_pos (by omega)]
      rfl
    · simp only [List.getD_eq_getElem?_getD]
      rw [List.getElem?_append_right (by simp; omega)]
      simp only [List.length_replicate]
      rw [show i - (count + (n + 1)) = i - count - (n + 1) by omega]

/-- packed data is taken or refused, whatever it is -/
theorem psdRle_any {ch total : Nat} (hch : ch < 4) : ∀ {f count : Nat} {m : Buf} {s : Src}, m.size = 4 * total → s.all.length + (total - count) + 1 ≤ f →
    psdRle f ch total count m s = .ok none ∨ ∃ m' s', psdRle f ch total count m s = .ok (some (m', s')) ∧ m'.size = 4 * total
  | 0, _, _, _, _, hf => absurd hf (by omega)
  | f + 1, count, m, s, hm, hf => by
    have hs : s.all = s.all.drop 0 := rfl
    have hg := get8_drop hs
    have hle : (get8 s).2.all.length ≤ s.all.length := get8_le s
    have hb := (get8 s).1.toNat_lt
    rw [psdRle]
    by_cases h0 : total ≤ count
    · rw [if_pos h0]; exact .inr ⟨m, s, rfl, hm⟩
    rw [if_neg h0]
    simp only
    by_cases h1 : (get8 s).1.toNat = 128
    · rw [if_pos h1]
      refine psdRle_any hch hm ?_
      have hk : 0 < s.all.length := by
        by_contra hk
        rw [hg.1, byteAt, List.getD_eq_getElem?_getD, List.getElem?_eq_none (by omega)] at h1
        exact absurd h1 (by decide)
      rw [hg.2, List.length_drop]
      omega
    rw [if_neg h1]
    by_cases h2 : (get8 s).1.toNat < 128
    · rw [if_pos h2]
      by_cases h3 : total - count < (get8 s).1.toNat + 1
      · rw [if_pos h3]; exact .inl rfl
      rw [if_neg h3]
      obtain ⟨m1, s1, a1, a2, a3⟩ := psdCopy_ok (len := (get8 s).1.toNat + 1) hg.2 hch hm (show count + ((get8 s).1.toNat + 1) ≤ total by omega)
      rw [a1, Outcome.bind_ok]
      refine psdRle_any hch (by rw [a2.size, hm]) ?_
      rw [a3, List.length_drop]
      omega
    · rw [if_neg h2]
      by_cases h3 : total - count < 257 - (get8 s).1.toNat
      · rw [if_pos h3]; exact .inl rfl
      rw [if_neg h3]
      obtain ⟨m1, a1, a2⟩ := psdRun_ok (count := count) (len := 257 - (get8 s).1.toNat) (v := (get8 (get8 s).2).1) hch hm (show count + (257 - (get8 s).1.toNat) ≤ total by omega)
      rw [a1, Outcome.bind_ok]
      refine psdRle_any hch (by rw [a2.size, hm]) ?_
      have := get8_le (get8 s).2
      omega

end Verif.Png
