import Verif.Png.PicModel
import Verif.Png.Pnm
import Verif.Png.Psd
import Mathlib.Tactic.Ring

/-! # C162: PIC pictures -/

namespace Verif.Png

/-- the reader is at place `k` of the file -/
structure At (file : List UInt8) (k : Nat) (s : Ctx) : Prop where
  good : s.Good
  all : s.all = file.drop k
  short : file.length < 128 → s.eof = true

theorem At.get {file : List UInt8} {k : Nat} {s : Ctx} (h : At file k s) (hk : k < file.length) : s.get.1 = byteAt file k ∧ At file (k + 1) s.get.2 := by
  have hd : file.drop k = byteAt file k :: file.drop (k + 1) := by
    rw [List.drop_eq_getElem_cons hk, byteAt, List.getD_eq_getElem?_getD, List.getElem?_eq_getElem hk]
    rfl
  obtain ⟨h1, h2, h3⟩ := get_good h.good (h.all.trans hd)
  refine ⟨h1, h3, h2, fun hl => ?_⟩
  have he := h.short hl
  have hr := h.good.eof he
  have ha : s.buf = byteAt file k :: file.drop (k + 1) := by
    have := h.all.trans hd
    rw [Ctx.all, hr, List.append_nil] at this
    exact this
  rw [Ctx.get, ha]
  exact he

theorem At.start {file : List UInt8} (h : file ≠ []) : At file 0 (Ctx.start file) := by
  obtain ⟨h1, h2⟩ := start_good h
  refine ⟨h1, h2, fun hl => ?_⟩
  obtain ⟨b, bs, e1, _⟩ := take_cons_of_ne h
  rw [Ctx.start, Ctx.refill]
  simp only [e1]
  have : (b :: bs).length < 128 := by
    rw [← e1, List.length_take]
    omega
  rw [decide_eq_true this, Bool.or_true]

theorem At.pass {file : List UInt8} : ∀ {n k : Nat} {s : Ctx}, At file k s → k + n ≤ file.length → At file (k + n) (s.pass n)
  | 0, _, _, h, _ => h
  | n + 1, k, s, h, hk => by
    have := At.pass (n := n) (h.get (by omega)).2 (by omega)
    rw [show k + (n + 1) = k + 1 + n by omega]
    exact this

theorem At.more {file : List UInt8} {k : Nat} {s : Ctx} (h : At file k s) (hk : k < file.length) : s.atEof = false :=
  atEof_good h.good (by
    rw [h.all]
    intro h0
    have := List.drop_eq_nil_iff.1 h0
    omega)

theorem At.num16 {file : List UInt8} {k : Nat} {s : Ctx} (h : At file k s) (hk : k + 1 < file.length) :
    s.get.1.toNat * 256 + s.get.2.get.1.toNat = num16 file k ∧ At file (k + 2) s.get.2.get.2 := by
  obtain ⟨a1, a2⟩ := h.get (by omega)
  obtain ⟨b1, b2⟩ := a2.get (by omega)
  exact ⟨by rw [a1, b1, Png.num16], b2⟩

/-- a PIC file of a size, with more than its header -/
structure IsPic (file : List UInt8) (x y : Nat) : Prop where
  id : file.take 4 = [83, 128, 246, 52]
  pict : (file.drop 88).take 4 = [80, 73, 67, 84]
  long : 108 < file.length
  width : num16 file 92 = x
  height : num16 file 94 = y

/-- packets described one after the other, of 8 bits each: what kind of runs they have, and their channels -/
inductive PicPackets (file : List UInt8) : Nat → List (UInt8 × UInt8) → Nat → Prop
  | last (k : Nat) : byteAt file k = 0 → byteAt file (k + 1) = 8 → k + 4 < file.length → PicPackets file k [(byteAt file (k + 2), byteAt file (k + 3))] (k + 4)
  | more (k : Nat) (ps : List (UInt8 × UInt8)) (k' : Nat) : byteAt file k ≠ 0 → byteAt file (k + 1) = 8 → PicPackets file (k + 4) ps k' →
      PicPackets file k ((byteAt file (k + 2), byteAt file (k + 3)) :: ps) k'

theorem PicPackets.lt {file : List UInt8} {k k' : Nat} {ps : List (UInt8 × UInt8)} (h : PicPackets file k ps k') : k + 4 < file.length + 1 ∧ k' < file.length ∧ k + 4 ≤ k' := by
  induction h with
  | last k _ _ h => omega
  | more k ps k' _ _ _ ih => omega

theorem picPackets_ok {file : List UInt8} {k k' : Nat} {ps : List (UInt8 × UInt8)} (h : PicPackets file k ps k') :
    ∀ {n : Nat} {s : Ctx}, ps.length ≤ n → At file k s → ∃ s', picPackets n s = some (ps, s') ∧ At file k' s' := by
  induction h with
  | last k h0 h1 h2 =>
    intro n s hn hs
    cases n with
    | zero => simp at hn
    | succ n =>
      obtain ⟨a1, a2⟩ := hs.get (by omega)
      obtain ⟨b1, b2⟩ := a2.get (by omega)
      obtain ⟨c1, c2⟩ := b2.get (by omega)
      obtain ⟨d1, d2⟩ := c2.get (by omega)
      refine ⟨_, ?_, d2⟩
      simp only [picPackets]
      rw [d2.more (by omega), if_neg (by decide), b1, h1, if_neg (by decide), a1, h0, if_neg (by decide), c1, d1]
  | more k ps k' h0 h1 hp ih =>
    intro n s hn hs
    have hl := hp.lt
    cases n with
    | zero => simp at hn
    | succ n =>
      obtain ⟨a1, a2⟩ := hs.get (by omega)
      obtain ⟨b1, b2⟩ := a2.get (by omega)
      obtain ⟨c1, c2⟩ := b2.get (by omega)
      obtain ⟨d1, d2⟩ := c2.get (by omega)
      obtain ⟨s', e1, e2⟩ := ih (n := n) (by simpa using hn) d2
      refine ⟨s', ?_, e2⟩
      simp only [picPackets]
      rw [d2.more (by omega), if_neg (by decide), b1, h1, if_neg (by decide), a1, if_pos h0, c1, d1, e1]
      rfl

theorem pic_head {file : List UInt8} {x y : Nat} (hf : IsPic file x y) : ∃ s, At file 104 s ∧ ∀ rounds room,
    loadPic rounds room file = if 2 ^ 31 ≤ x * y * 4 then .throws "too large" else if room < x * y * 4 then .ub else
      match picPackets 10 s with
      | none => .ub
      | some (ps, s) => picEnd room x y (picComp ps) (loop y (fun j q => picRows rounds x (j * x * 4) ps q.1 q.2) (⟨x * y * 4, fun _ => some 255⟩, s)) := by
  have hl := hf.long
  have h0 := At.start (file := file) (by rintro rfl; simp at hl)
  have h1 := h0.pass (n := 92) (by omega)
  rw [Nat.zero_add] at h1
  obtain ⟨a1, a2⟩ := h1.num16 (by omega)
  obtain ⟨b1, b2⟩ := a2.num16 (by omega)
  refine ⟨_, b2.pass (n := 8) (by omega), fun rounds room => ?_⟩
  simp only [loadPic]
  rw [b2.more (by omega), if_neg (by decide), a1, b1, hf.width, hf.height]
  generalize picPackets 10 (Ctx.pass 8 (Ctx.pass 92 (Ctx.start file)).get.2.get.2.get.2.get.2) = o
  cases o <;> rfl

theorem pic_of {file : List UInt8} {x y k : Nat} {ps : List (UInt8 × UInt8)} (hf : IsPic file x y) (hps : PicPackets file 104 ps k) (hn : ps.length ≤ 10) :
    ∃ s, At file k s ∧ ∀ rounds room, x * y * 4 < 2 ^ 31 → x * y * 4 ≤ room →
      loadPic rounds room file = picEnd room x y (picComp ps) (loop y (fun j q => picRows rounds x (j * x * 4) ps q.1 q.2) (⟨x * y * 4, fun _ => some 255⟩, s)) := by
  obtain ⟨s, hs, hl⟩ := pic_head hf
  obtain ⟨s', e1, e2⟩ := picPackets_ok hps hn hs
  refine ⟨s', e2, fun rounds room h1 h2 => ?_⟩
  rw [hl, if_neg (by omega), if_neg (by omega), e1]

/-- **C162** (what does not hold) A PIC file whose packet is not of 8 bits is not refused: its number of channels is used without having been set, so there is no defined result. -/
theorem C162_bits_fails (rounds room x y : Nat) (file : List UInt8) (hf : IsPic file x y) (hsize : x * y * 4 < 2 ^ 31) (hb : byteAt file 105 ≠ 8) :
    loadPic rounds room file = .ub := by
  obtain ⟨s, hs, hl⟩ := pic_head hf
  have hlen := hf.long
  rw [hl, if_neg (by omega)]
  split
  · rfl
  obtain ⟨a1, a2⟩ := hs.get (by omega)
  obtain ⟨b1, b2⟩ := a2.get (by omega)
  obtain ⟨c1, c2⟩ := b2.get (by omega)
  obtain ⟨d1, d2⟩ := c2.get (by omega)
  have : picPackets 10 s = none := by
    simp only [picPackets]
    rw [d2.more (by omega), if_neg (by decide), b1, if_pos hb]
  rw [this]

/-- **C162** (what does not hold) If there is no memory for a PIC file, what should be there is written nevertheless. -/
theorem C162_memory_fails (rounds room x y : Nat) (file : List UInt8) (hf : IsPic file x y) (hsize : x * y * 4 < 2 ^ 31) (hr : room < x * y * 4) :
    loadPic rounds room file = .ub := by
  obtain ⟨s, hs, hl⟩ := pic_head hf
  rw [hl, if_neg (by omega), if_pos hr]

theorem picComp_ne {ps : List (UInt8 × UInt8)} (h : ∀ p ∈ ps, p.2.toNat.testBit 4 = false) : picComp ps = 3 := by
  rw [picComp, if_neg]
  intro h0
  obtain ⟨p, hp, h1⟩ := List.any_eq_true.1 h0
  rw [h p hp] at h1
  cases h1

theorem picLoop_throws {σ : Type} {f : Nat → σ → Outcome σ} {n : Nat} {s : σ} {e : String} (hn : 0 < n) (h : f 0 s = .throws e) : loop n f s = .throws e := by
  cases n with
  | zero => omega
  | succ n => rw [loop, loopFrom, h]; rfl

/-- **C162** (what does not hold) A PIC file without alpha whose first packet has a kind of runs that is not known is not refused: it is converted though it has been freed, and read where there is no memory.
With alpha it is refused. -/
theorem C162_kind_fails (rounds room x y k : Nat) (type channel : UInt8) (ps : List (UInt8 × UInt8)) (file : List UInt8) (hf : IsPic file x y)
    (hps : PicPackets file 104 ((type, channel) :: ps) k) (hn : ps.length < 10) (hx : 0 < x) (hy : 0 < y) (hsize : x * y * 4 < 2 ^ 31) (hroom : x * y * 4 ≤ room)
    (ht : type ≠ 0 ∧ type ≠ 1 ∧ type ≠ 2) :
    loadPic rounds room file = if (∃ p ∈ (type, channel) :: ps, p.2.toNat.testBit 4 = true) then .throws "bad format" else .ub := by
  obtain ⟨s, _, hl⟩ := pic_of hf hps (by rw [List.length_cons]; omega)
  rw [hl rounds room hsize hroom, picLoop_throws (e := "bad format") hy (by
    simp only [picRows, picRow]
    rw [if_neg ht.1, if_neg ht.2.1, if_neg ht.2.2]
    rfl)]
  have hxy : 0 < x * y := Nat.mul_pos hx hy
  by_cases h : ∃ p ∈ (type, channel) :: ps, p.2.toNat.testBit 4 = true
  · rw [if_pos h]
    obtain ⟨p, hp, h1⟩ := h
    have : picComp ((type, channel) :: ps) = 4 := by
      rw [picComp, if_pos (List.any_eq_true.2 ⟨p, hp, h1⟩)]
    simp only [picEnd, this, if_pos]
  · rw [if_neg h, picComp_ne (fun p hp => by
      cases hb : p.2.toNat.testBit 4 with
      | false => rfl
      | true => exact absurd ⟨p, hp, hb⟩ h)]
    have e : 3 * x * y = 3 * (x * y) := Nat.mul_assoc _ _ _
    simp only [picEnd]
    rw [if_neg (by decide), if_neg (by omega), if_neg (by omega)]

/-- **C162** (what does not hold) A PIC file of red, green and blue that ends within its first pixel is not refused, whatever its size says: it is read where there is no memory. -/
theorem C162_cut_fails (rounds room x y : Nat) (file : List UInt8) (hf : IsPic file x y) (hps : PicPackets file 104 [(0, 0xE0)] 108) (hx : 0 < x) (hy : 0 < y)
    (hsize : x * y * 4 < 2 ^ 31) (hroom : x * y * 4 ≤ room) (hcut : file.length < 111) : loadPic rounds room file = .ub := by
  obtain ⟨s, hs, hl⟩ := pic_of hf hps (by simp)
  have hlen := hf.long
  have hend : ∀ {k : Nat} {s : Ctx}, At file k s → k = file.length → s.atEof = true := fun {k s} h hk => by
    have he := h.short (by omega)
    have hr := h.good.eof he
    have ha := h.all
    rw [hk, List.drop_length, Ctx.all, hr, List.append_nil] at ha
    rw [Ctx.atEof, if_pos he, h.good.more, if_pos rfl, ha]
    rfl
  have hread : picRead 0xE0 [0, 1, 2, 3] s = none := by
    obtain ⟨a1, a2⟩ := hs.get (by omega)
    rw [picRead, if_pos (by decide), hs.more (by omega), if_neg (by decide), picRead, if_pos (by decide)]
    by_cases h1 : file.length = 109
    · rw [hend a2 h1.symm, if_pos rfl]
      rfl
    · obtain ⟨b1, b2⟩ := a2.get (by omega)
      rw [a2.more (by omega), if_neg (by decide), picRead, if_pos (by decide), hend b2 (by omega), if_pos rfl]
      rfl
  rw [hl rounds room hsize hroom, picLoop_throws (e := "bad file") hy (by
    simp only [picRows, picRow]
    rw [if_pos trivial, picLoop_throws (e := "bad file") hx (by simp only [picPixel, hread])]
    rfl)]
  have hxy : 0 < x * y := Nat.mul_pos hx hy
  have e : 3 * x * y = 3 * (x * y) := Nat.mul_assoc _ _ _
  rw [picComp_ne (by decide)]
  simp only [picEnd]
  rw [if_neg (by decide), if_neg (by omega), if_neg (by omega)]

/-- the channels of a picture of three or four samples for each pixel -/
def picMask (n : Nat) : UInt8 := if n = 4 then 0xF0 else 0xE0

theorem picPixel_ok {file : List UInt8} {n k at_ : Nat} {m : Buf} {s : Ctx} (hn : n = 3 ∨ n = 4) (hs : At file k s) (hk : k + n ≤ file.length) (hm : at_ + 4 ≤ m.size) :
    ∃ q, picPixel (picMask n) at_ m s = .ok q ∧ q.1.size = m.size ∧ (∀ c < n, q.1.at_ (at_ + c) = some (byteAt file (k + c))) ∧
      (∀ j, j < at_ ∨ at_ + 4 ≤ j → q.1.at_ j = m.at_ j) ∧ At file (k + n) q.2 := by
  obtain ⟨a1, a2⟩ := hs.get (by omega)
  obtain ⟨b1, b2⟩ := a2.get (by omega)
  obtain ⟨c1, c2⟩ := b2.get (by omega)
  obtain ⟨m1, e1, f1, g1, i1⟩ := store_ok (m := m) (i := at_ + 0) (byteAt file k) (by omega)
  obtain ⟨m2, e2, f2, g2, i2⟩ := store_ok (m := m1) (i := at_ + 1) (byteAt file (k + 1)) (by omega)
  obtain ⟨m3, e3, f3, g3, i3⟩ := store_ok (m := m2) (i := at_ + 2) (byteAt file (k + 2)) (by omega)
  rcases hn with rfl | rfl
  · refine ⟨(m3, s.get.2.get.2.get.2), ?_, by simp only; omega, fun c hc => ?_, fun j hj => ?_, c2⟩
    · rw [picPixel, picRead, if_pos (by decide), hs.more (by omega), if_neg (by decide), picRead, if_pos (by decide), a2.more (by omega), if_neg (by decide), picRead,
        if_pos (by decide), b2.more (by omega), if_neg (by decide), picRead, if_neg (by decide), picRead]
      simp only [Option.map_some, picPut, a1, b1, c1, e1, e2, e3, Outcome.bind_ok]
    · simp only
      match c, hc with
      | 0, _ => rw [i3 _ (by omega), i2 _ (by omega), g1]; rfl
      | 1, _ => rw [i3 _ (by omega), g2]
      | 2, _ => rw [g3]
    · simp only
      rw [i3 _ (by omega), i2 _ (by omega), i1 _ (by omega)]
  · obtain ⟨d1, d2⟩ := c2.get (by omega)
    obtain ⟨m4, e4, f4, g4, i4⟩ := store_ok (m := m3) (i := at_ + 3) (byteAt file (k + 3)) (by omega)
    refine ⟨(m4, s.get.2.get.2.get.2.get.2), ?_, by simp only; omega, fun c hc => ?_, fun j hj => ?_, d2⟩
    · rw [picPixel, picRead, if_pos (by decide), hs.more (by omega), if_neg (by decide), picRead, if_pos (by decide), a2.more (by omega), if_neg (by decide), picRead,
        if_pos (by decide), b2.more (by omega), if_neg (by decide), picRead, if_pos (by decide), c2.more (by omega), if_neg (by decide), picRead]
      simp only [Option.map_some, picPut, a1, b1, c1, d1, e1, e2, e3, e4, Outcome.bind_ok]
    · simp only
      match c, hc with
      | 0, _ => rw [i4 _ (by omega), i3 _ (by omega), i2 _ (by omega), g1]; rfl
      | 1, _ => rw [i4 _ (by omega), i3 _ (by omega), g2]
      | 2, _ => rw [i4 _ (by omega), g3]
      | 3, _ => rw [g4]
    · simp only
      rw [i4 _ (by omega), i3 _ (by omega), i2 _ (by omega), i1 _ (by omega)]

/-- the first pixels are there -/
structure PicDone (file : List UInt8) (n N D p : Nat) (q : Buf × Ctx) : Prop where
  size : q.1.size = N * 4
  here : ∀ i < p, ∀ c < n, q.1.at_ (i * 4 + c) = some (byteAt file (D + i * n + c))
  next : At file (D + p * n) q.2

theorem picPixels_ok {file : List UInt8} {n N D w p : Nat} {q : Buf × Ctx} (hn : n = 3 ∨ n = 4) (hq : PicDone file n N D p q) (hp : p + w ≤ N) (hl : D + N * n ≤ file.length) :
    ∃ q', loop w (fun i q => picPixel (picMask n) (p * 4 + 4 * i) q.1 q.2) q = .ok q' ∧ PicDone file n N D (p + w) q' := by
  refine loop_inv (P := fun (t : Nat) (q : Buf × Ctx) => PicDone file n N D (p + t) q) hq ?_
  rintro t ht q1 h1
  have e : D + (p + t) * n + n ≤ file.length := by
    have : (p + t + 1) * n ≤ N * n := Nat.mul_le_mul_right _ (by omega)
    rw [Nat.add_mul, Nat.one_mul] at this
    omega
  obtain ⟨q2, a1, a2, a3, a4, a5⟩ := picPixel_ok (at_ := p * 4 + 4 * t) (m := q1.1) hn h1.next e (by rw [h1.size]; omega)
  refine ⟨q2, a1, by rw [a2, h1.size], fun i hi c hc => ?_, ?_⟩
  · by_cases hit : i = p + t
    · rw [hit, show (p + t) * 4 + c = p * 4 + 4 * t + c by ring]
      exact a3 c hc
    · rw [a4 _ (by omega)]
      exact h1.here i (by omega) c hc
  · rw [show D + (p + (t + 1)) * n = D + (p + t) * n + n by ring]
    exact a5

theorem picRows_ok {file : List UInt8} {rounds n x y D : Nat} {q : Buf × Ctx} (hn : n = 3 ∨ n = 4) (hq : PicDone file n (x * y) D 0 q) (hl : D + x * y * n ≤ file.length) :
    ∃ q', loop y (fun j q => picRows rounds x (j * x * 4) [(0, picMask n)] q.1 q.2) q = .ok q' ∧ PicDone file n (x * y) D (x * y) q' := by
  have := loop_inv (f := fun j (q : Buf × Ctx) => picRows rounds x (j * x * 4) [(0, picMask n)] q.1 q.2) (n := y) (s := q)
    (P := fun (t : Nat) (q : Buf × Ctx) => PicDone file n (x * y) D (t * x) q) (by rw [Nat.zero_mul]; exact hq) ?_
  · rw [Nat.mul_comm y x] at this
    exact this
  rintro t ht q1 h1
  have e : t * x + x ≤ x * y := by
    have : (t + 1) * x ≤ y * x := Nat.mul_le_mul_right _ ht
    rw [Nat.add_mul, Nat.one_mul, Nat.mul_comm y] at this
    exact this
  obtain ⟨q2, a1, a2⟩ := picPixels_ok hn h1 e hl
  refine ⟨q2, ?_, by rw [Nat.add_mul, Nat.one_mul]; exact a2⟩
  simp only [picRows, picRow]
  rw [if_pos trivial, a1]
  rfl

theorem picDrop_ok {x y : Nat} {src : Buf} {v : Nat → Nat → UInt8} (hsz : src.size = x * y * 4) (hv : ∀ i < x * y, ∀ c < 3, src.at_ (i * 4 + c) = some (v i c)) :
    ∃ m, picDrop x y src = .ok m ∧ m.size = x * y * 3 ∧ ∀ i < x * y, ∀ c < 3, m.at_ (i * 3 + c) = some (v i c) := by
  rw [picDrop]
  refine loop_inv (P := fun (t : Nat) (m : Buf) => m.size = x * y * 3 ∧ ∀ i < t, ∀ c < 3, m.at_ (i * 3 + c) = some (v i c))
    ⟨by rw [show 3 * x * y = x * y * 3 by ring]; rfl, fun i hi => absurd hi (by omega)⟩ ?_
  rintro t ht m ⟨h1, h2⟩
  have := loop_inv (f := fun c m => load src (4 * t + c) >>= fun v => store m (3 * t + c) v) (n := 3) (s := m)
    (P := fun (c : Nat) (m : Buf) => m.size = x * y * 3 ∧ (∀ i < t, ∀ c < 3, m.at_ (i * 3 + c) = some (v i c)) ∧ ∀ d < c, m.at_ (t * 3 + d) = some (v t d))
    ⟨h1, h2, fun d hd => absurd hd (by omega)⟩ ?_
  · obtain ⟨m', b0, b1, b2, b3⟩ := this
    refine ⟨m', b0, b1, fun i hi c hc => ?_⟩
    by_cases hit : i = t
    · rw [hit]; exact b3 c hc
    · exact b2 i (by omega) c hc
  rintro c hc m1 ⟨g1, g2, g3⟩
  rw [show load src (4 * t + c) = .ok (v t c) by rw [load, if_pos (by omega), show 4 * t + c = t * 4 + c by ring, hv t ht c hc], Outcome.bind_ok]
  obtain ⟨m2, a1, a2, a3, a4⟩ := store_ok (m := m1) (i := 3 * t + c) (v t c) (by omega)
  refine ⟨m2, a1, by omega, fun i hi d hd => ?_, fun d hd => ?_⟩
  · rw [a4 _ (by omega), g2 i hi d hd]
  · by_cases hdc : d = c
    · rw [hdc, show t * 3 + c = 3 * t + c by ring, a3]
    · rw [a4 _ (by omega), g3 d (by omega)]

/-- **C162** (what holds) A PIC file whose pixels are stored as they are, in one packet of red, green, blue and maybe alpha, is read as the picture that it holds, of any size. -/
theorem C162_raw (rounds room n x y : Nat) (file : List UInt8) (hn : n = 3 ∨ n = 4) (hf : IsPic file x y) (hps : PicPackets file 104 [(0, if n = 4 then 0xF0 else 0xE0)] 108)
    (hsize : x * y * 4 < 2 ^ 31) (hroom : x * y * 4 ≤ room) (hl : 108 + x * y * n ≤ file.length) :
    ∃ i, loadPic rounds room file = .ok i ∧ i.x = x ∧ i.y = y ∧ i.n = n ∧ i.out.size = x * y * n ∧
      ∀ Y < y, ∀ X < x, ∀ c < n, load i.out ((Y * x + X) * n + c) = .ok (file.getD (108 + (Y * x + X) * n + c) 0) := by
  obtain ⟨s, hs, hld⟩ := pic_of hf hps (by simp)
  rw [hld rounds room hsize hroom]
  obtain ⟨q, a1, a2⟩ := picRows_ok (rounds := rounds) (q := (⟨x * y * 4, fun _ => some 255⟩, s)) hn ⟨rfl, fun i hi => absurd hi (by omega), by rw [Nat.zero_mul]; exact hs⟩ hl
  rw [picMask] at a1
  rw [a1]
  have hlt : ∀ Y < y, ∀ X < x, Y * x + X < x * y := fun Y hY X hX => by
    have : (Y + 1) * x ≤ y * x := Nat.mul_le_mul_right _ hY
    rw [Nat.add_mul, Nat.one_mul, Nat.mul_comm y] at this
    omega
  rcases hn with rfl | rfl
  · have e : 3 * x * y = 3 * (x * y) := Nat.mul_assoc _ _ _
    obtain ⟨m, b1, b2, b3⟩ := picDrop_ok a2.size a2.here
    rw [show picComp [(0, if 3 = 4 then 0xF0 else 0xE0)] = 3 by decide]
    simp only [picEnd]
    rw [if_neg (by decide), if_neg (by omega), b1, Outcome.bind_ok]
    refine ⟨_, rfl, rfl, rfl, rfl, b2, fun Y hY X hX c hc => ?_⟩
    have := hlt Y hY X hX
    simp only
    rw [load, if_pos (by omega), b3 _ this c hc]
    rfl
  · rw [show picComp [(0, if 4 = 4 then 0xF0 else 0xE0)] = 4 by decide]
    simp only [picEnd]
    rw [if_pos trivial]
    refine ⟨_, rfl, rfl, rfl, rfl, a2.size, fun Y hY X hX c hc => ?_⟩
    have := hlt Y hY X hX
    simp only
    rw [load, if_pos (by rw [a2.size]; omega), a2.here _ this c hc]
    rfl

/-- a header of two pixels, with the description of one packet, and what follows -/
def picFile (packet data : List UInt8) : List UInt8 :=
  [83, 128, 246, 52] ++ List.replicate 84 0 ++ [80, 73, 67, 84, 0, 2, 0, 1] ++ List.replicate 8 0 ++ packet ++ data

theorem picFile_is : IsPic (picFile [0, 8, 0, 0xE0] [1, 2, 3, 4, 5, 6]) 2 1 := ⟨by decide, by decide, by decide, by decide, by decide⟩

example : ∃ i, loadPic 100 100 (picFile [0, 8, 0, 0xE0] [1, 2, 3, 4, 5, 6]) = .ok i ∧ i.x = 2 ∧ i.y = 1 ∧ i.n = 3 ∧ load i.out 1 = .ok 2 ∧ load i.out 5 = .ok 6 := by
  obtain ⟨i, a1, a2, a3, a4, _, a6⟩ := C162_raw 100 100 3 2 1 _ (.inl rfl) picFile_is (.last 104 (by decide) (by decide) (by decide)) (by decide) (by decide) (by decide)
  exact ⟨i, a1, a2, a3, a4, a6 0 (by decide) 0 (by decide) 1 (by decide), a6 0 (by decide) 1 (by decide) 2 (by decide)⟩

example : loadPic 100 100 (picFile [0, 16, 0, 0xE0] [1, 2, 3, 4, 5, 6]) = .ub :=
  C162_bits_fails 100 100 2 1 _ ⟨by decide, by decide, by decide, by decide, by decide⟩ (by decide) (by decide)

example : loadPic 100 7 (picFile [0, 8, 0, 0xE0] [1, 2, 3, 4, 5, 6]) = .ub := C162_memory_fails 100 7 2 1 _ picFile_is (by decide) (by decide)

example : loadPic 100 100 (picFile [0, 8, 9, 0xE0] [1, 2, 3, 4, 5, 6]) = .ub :=
  (C162_kind_fails 100 100 2 1 108 9 0xE0 [] _ ⟨by decide, by decide, by decide, by decide, by decide⟩ (.last 104 (by decide) (by decide) (by decide)) (by decide) (by decide)
    (by decide) (by decide) (by decide) (by decide)).trans (if_neg (by simp; decide))

example : loadPic 100 100 (picFile [0, 8, 0, 0xE0] [1, 2]) = .ub :=
  C162_cut_fails 100 100 2 1 _ ⟨by decide, by decide, by decide, by decide, by decide⟩ (.last 104 (by decide) (by decide) (by decide)) (by decide) (by decide) (by decide) (by decide)
    (by decide)

end Verif.Png
