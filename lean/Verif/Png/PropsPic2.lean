import Verif.Png.PropsPic

/-! # C162, continued: PIC pictures in runs -/

namespace Verif.Png

/-- the value at a place of the file -/
def picVals (file : List UInt8) (n k : Nat) : List (Nat × UInt8) := (List.range n).map fun c => (c, byteAt file (k + c))

theorem picRead_ok {file : List UInt8} {n k : Nat} {s : Ctx} (hn : n = 3 ∨ n = 4) (hs : At file k s) (hk : k + n ≤ file.length) :
    ∃ s', picRead (picMask n) [0, 1, 2, 3] s = some (picVals file n k, s') ∧ At file (k + n) s' := by
  obtain ⟨a1, a2⟩ := hs.get (by omega)
  obtain ⟨b1, b2⟩ := a2.get (by omega)
  obtain ⟨c1, c2⟩ := b2.get (by omega)
  rcases hn with rfl | rfl
  · refine ⟨s.get.2.get.2.get.2, ?_, c2⟩
    rw [picRead, if_pos (by decide), hs.more (by omega), if_neg (by decide), picRead, if_pos (by decide), a2.more (by omega), if_neg (by decide), picRead,
        if_pos (by decide), b2.more (by omega), if_neg (by decide), picRead, if_neg (by decide), picRead, a1, b1, c1]
    rfl
  · obtain ⟨d1, d2⟩ := c2.get (by omega)
    refine ⟨s.get.2.get.2.get.2.get.2, ?_, d2⟩
    rw [picRead, if_pos (by decide), hs.more (by omega), if_neg (by decide), picRead, if_pos (by decide), a2.more (by omega), if_neg (by decide), picRead,
        if_pos (by decide), b2.more (by omega), if_neg (by decide), picRead, if_pos (by decide), c2.more (by omega), if_neg (by decide), picRead, a1, b1, c1, d1]
    rfl

theorem picPut_ok {file : List UInt8} {n k at_ : Nat} {m : Buf} {s : Ctx} (hn : n = 3 ∨ n = 4) (hs : At file k s) (hk : k + n ≤ file.length) (hm : at_ + 4 ≤ m.size) :
    ∃ m', picPut at_ (picVals file n k) m = .ok m' ∧ m'.size = m.size ∧ (∀ c < n, m'.at_ (at_ + c) = some (byteAt file (k + c))) ∧
      (∀ j, j < at_ ∨ at_ + 4 ≤ j → m'.at_ j = m.at_ j) := by
  obtain ⟨q, a1, a2, a3, a4, _⟩ := picPixel_ok hn hs hk hm
  obtain ⟨s', b1, _⟩ := picRead_ok hn hs hk
  simp only [picPixel, b1] at a1
  cases h : picPut at_ (picVals file n k) m with
  | ok m' =>
    rw [h, Outcome.bind_ok] at a1
    injection a1 with a1
    rw [← a1] at a2 a3 a4
    exact ⟨m', rfl, a2, a3, a4⟩
  | _ => rw [h] at a1; cases a1

/-- pixels from `at_` on are those at the places of the list, and nothing else has changed -/
structure Laid (file : List UInt8) (n at_ : Nat) (l : List Nat) (m m' : Buf) : Prop where
  size : m'.size = m.size
  here : ∀ i < l.length, ∀ c < n, m'.at_ (at_ + 4 * i + c) = some (byteAt file (l.getD i 0 + c))
  else_ : ∀ j, j < at_ ∨ at_ + 4 * l.length ≤ j → m'.at_ j = m.at_ j

theorem Laid.append {file : List UInt8} {n at_ : Nat} {l l' : List Nat} {m m1 m2 : Buf} (hn : n ≤ 4) (h1 : Laid file n at_ l m m1)
    (h2 : Laid file n (at_ + 4 * l.length) l' m1 m2) : Laid file n at_ (l ++ l') m m2 := by
  refine ⟨by rw [h2.size, h1.size], fun i hi c hc => ?_, fun j hj => ?_⟩
  · rw [List.length_append] at hi
    by_cases h : i < l.length
    · rw [h2.else_ _ (by omega), h1.here i h c hc, List.getD_eq_getElem?_getD, List.getD_eq_getElem?_getD, List.getElem?_append_left h]
    · have := h2.here (i - l.length) (by omega) c hc
      rw [show at_ + 4 * l.length + 4 * (i - l.length) + c = at_ + 4 * i + c by omega] at this
      rw [this, List.getD_eq_getElem?_getD, List.getD_eq_getElem?_getD, List.getElem?_append_right (by omega)]
  · rw [List.length_append] at hj
    rw [h2.else_ _ (by omega), h1.else_ _ (by omega)]

theorem picRepeat_ok {file : List UInt8} {n k at_ count : Nat} {m : Buf} {s : Ctx} (hn : n = 3 ∨ n = 4) (hs : At file k s) (hk : k + n ≤ file.length)
    (hm : at_ + 4 * count ≤ m.size) : ∃ q, picRepeat (picMask n) at_ count m s = .ok q ∧ Laid file n at_ (List.replicate count k) m q.1 ∧ At file (k + n) q.2 := by
  obtain ⟨s', b1, b2⟩ := picRead_ok hn hs hk
  simp only [picRepeat, b1]
  obtain ⟨m', c0, c1⟩ := loop_inv (f := fun i m => picPut (at_ + 4 * i) (picVals file n k) m) (n := count) (s := m)
    (P := fun (t : Nat) (m' : Buf) => Laid file n at_ (List.replicate t k) m m') ⟨rfl, fun i hi => absurd hi (by simp), fun _ _ => rfl⟩ (by
      rintro t ht m1 h1
      obtain ⟨m2, a1, a2, a3, a4⟩ := picPut_ok (at_ := at_ + 4 * t) (m := m1) hn hs hk (by rw [h1.size]; omega)
      refine ⟨m2, a1, ?_⟩
      rw [List.replicate_succ']
      refine h1.append (by omega) ⟨a2, fun i hi c hc => ?_, fun j hj => ?_⟩
      · have : i = 0 := by simpa using hi
        subst this
        rw [List.length_replicate]
        exact a3 c hc
      · rw [List.length_replicate] at hj
        exact a4 j (by simpa using hj))
  rw [c0, Outcome.bind_ok]
  exact ⟨_, rfl, c1, b2⟩

theorem picCopy_ok {file : List UInt8} {n k at_ count : Nat} {m : Buf} {s : Ctx} (hn : n = 3 ∨ n = 4) (hs : At file k s) (hk : k + count * n ≤ file.length)
    (hm : at_ + 4 * count ≤ m.size) : ∃ q, loop count (fun i q => picPixel (picMask n) (at_ + 4 * i) q.1 q.2) (m, s) = .ok q ∧
      Laid file n at_ ((List.range count).map fun i => k + i * n) m q.1 ∧ At file (k + count * n) q.2 := by
  refine loop_inv (P := fun (t : Nat) (q : Buf × Ctx) => Laid file n at_ ((List.range t).map fun i => k + i * n) m q.1 ∧ At file (k + t * n) q.2)
    ⟨⟨rfl, fun i hi => absurd hi (by simp), fun _ _ => rfl⟩, by rw [Nat.zero_mul]; exact hs⟩ ?_
  rintro t ht q1 ⟨h1, h2⟩
  have e : k + t * n + n ≤ file.length := by
    have : (t + 1) * n ≤ count * n := Nat.mul_le_mul_right _ ht
    rw [Nat.add_mul, Nat.one_mul] at this
    omega
  obtain ⟨q2, a1, a2, a3, a4, a5⟩ := picPixel_ok (at_ := at_ + 4 * t) (m := q1.1) hn h2 e (by rw [h1.size]; omega)
  refine ⟨q2, a1, ?_, by rw [Nat.add_mul, Nat.one_mul, ← Nat.add_assoc]; exact a5⟩
  rw [List.range_succ, List.map_append]
  refine h1.append (by omega) ⟨a2, fun i hi c hc => ?_, fun j hj => ?_⟩
  · have : i = 0 := by simpa using hi
    subst this
    rw [List.length_map, List.length_range]
    exact a3 c hc
  · rw [List.length_map, List.length_range] at hj
    exact a4 j (by simpa using hj)

/-- a row in runs at a place of the file: where the pixels are, and where it ends.  Rows of kind 1 have runs of up to 255 pixels, rows of kind 2 runs of up to 128, long runs, and pixels as they are -/
inductive PicRuns (file : List UInt8) (n : Nat) : UInt8 → Nat → List Nat → Nat → Prop
  | nil (kind : UInt8) (k : Nat) : PicRuns file n kind k [] k
  | pure (k : Nat) (l : List Nat) (k' : Nat) : byteAt file k ≠ 0 → k + 1 + n ≤ file.length → PicRuns file n 1 (k + 1 + n) l k' →
      PicRuns file n 1 k (List.replicate (byteAt file k).toNat (k + 1) ++ l) k'
  | run (k : Nat) (l : List Nat) (k' : Nat) : 128 < (byteAt file k).toNat → k + 1 + n ≤ file.length → PicRuns file n 2 (k + 1 + n) l k' →
      PicRuns file n 2 k (List.replicate ((byteAt file k).toNat - 127) (k + 1) ++ l) k'
  | long (k : Nat) (l : List Nat) (k' : Nat) : byteAt file k = 128 → 0 < num16 file (k + 1) → k + 3 + n ≤ file.length → PicRuns file n 2 (k + 3 + n) l k' →
      PicRuns file n 2 k (List.replicate (num16 file (k + 1)) (k + 3) ++ l) k'
  | copy (k : Nat) (l : List Nat) (k' : Nat) : (byteAt file k).toNat < 128 → k + 1 + ((byteAt file k).toNat + 1) * n ≤ file.length →
      PicRuns file n 2 (k + 1 + ((byteAt file k).toNat + 1) * n) l k' →
      PicRuns file n 2 k (((List.range ((byteAt file k).toNat + 1)).map fun i => k + 1 + i * n) ++ l) k'

/-- a row of one of the two kinds -/
def picRunRow (channel kind : UInt8) (rounds at_ left : Nat) (m : Buf) (s : Ctx) : Outcome (Buf × Ctx) :=
  if kind = 1 then picPure channel rounds at_ left m s else picMixed channel rounds at_ left m s

theorem Laid.nil (file : List UInt8) (n at_ : Nat) (m : Buf) : Laid file n at_ [] m m := ⟨rfl, fun i hi => absurd hi (by simp), fun _ _ => rfl⟩

theorem picRuns_ok {file : List UInt8} {n : Nat} (hn : n = 3 ∨ n = 4) {kind : UInt8} {k k' : Nat} {l : List Nat} (h : PicRuns file n kind k l k') :
    ∀ {rounds at_ : Nat} {m : Buf} {s : Ctx}, At file k s → at_ + 4 * l.length ≤ m.size → l.length < rounds →
      ∃ q, picRunRow (picMask n) kind rounds at_ l.length m s = .ok q ∧ Laid file n at_ l m q.1 ∧ At file k' q.2 := by
  induction h with
  | nil kind k =>
    intro rounds at_ m s hs hm hr
    refine ⟨(m, s), ?_, Laid.nil _ _ _ _, hs⟩
    cases rounds with
    | zero => omega
    | succ r =>
      rw [picRunRow]
      split
      · rw [picPure, if_pos List.length_nil]
      · rw [picMixed, if_pos List.length_nil]
  | pure k l k' h0 hk hp ih =>
    intro rounds at_ m s hs hm hr
    rw [List.length_append, List.length_replicate] at hm hr ⊢
    have hb : 0 < (byteAt file k).toNat := by
      rcases Nat.eq_zero_or_pos (byteAt file k).toNat with h | h
      · exact absurd (UInt8.toNat_inj.1 h) h0
      · exact h
    obtain ⟨a1, a2⟩ := hs.get (by omega)
    cases rounds with
    | zero => omega
    | succ r =>
      rw [picRunRow, if_pos rfl, picPure, if_neg (by omega), a2.more (by omega), if_neg (by decide)]
      simp only [a1]
      rw [show min (byteAt file k).toNat ((byteAt file k).toNat + l.length) = (byteAt file k).toNat by omega]
      obtain ⟨q, b1, b2, b3⟩ := picRepeat_ok (at_ := at_) (count := (byteAt file k).toNat) (m := m) hn a2 hk (by omega)
      rw [b1, Outcome.bind_ok]
      obtain ⟨q', c1, c2, c3⟩ := ih (rounds := r) (at_ := at_ + 4 * (byteAt file k).toNat) (m := q.1) b3 (by rw [b2.size]; omega) (by omega)
      rw [picRunRow, if_pos rfl] at c1
      rw [show (byteAt file k).toNat + l.length - (byteAt file k).toNat = l.length by omega]
      exact ⟨q', c1, b2.append (by omega) (by rw [List.length_replicate]; exact c2), c3⟩
  | run k l k' h0 hk hp ih =>
    intro rounds at_ m s hs hm hr
    rw [List.length_append, List.length_replicate] at hm hr ⊢
    obtain ⟨a1, a2⟩ := hs.get (by omega)
    cases rounds with
    | zero => omega
    | succ r =>
      rw [picRunRow, if_neg (by decide), picMixed, if_neg (by omega)]
      simp only [a1]
      rw [a2.more (by omega), if_neg (by decide), if_pos (by omega), if_neg (show ¬ (byteAt file k).toNat = 128 by omega), if_neg (show ¬ (byteAt file k).toNat = 128 by omega), if_neg (by omega)]
      obtain ⟨q, b1, b2, b3⟩ := picRepeat_ok (at_ := at_) (count := (byteAt file k).toNat - 127) (m := m) hn a2 hk (by omega)
      rw [b1, Outcome.bind_ok]
      obtain ⟨q', c1, c2, c3⟩ := ih (rounds := r) (at_ := at_ + 4 * ((byteAt file k).toNat - 127)) (m := q.1) b3 (by rw [b2.size]; omega) (by omega)
      rw [picRunRow, if_neg (by decide)] at c1
      rw [show (byteAt file k).toNat - 127 + l.length - ((byteAt file k).toNat - 127) = l.length by omega]
      exact ⟨q', c1, b2.append (by omega) (by rw [List.length_replicate]; exact c2), c3⟩
  | long k l k' h0 h1 hk hp ih =>
    intro rounds at_ m s hs hm hr
    rw [List.length_append, List.length_replicate] at hm hr ⊢
    obtain ⟨a1, a2⟩ := hs.get (by omega)
    obtain ⟨d1, d2⟩ := a2.num16 (by omega)
    cases rounds with
    | zero => omega
    | succ r =>
      have h128 : (byteAt file k).toNat = 128 := by rw [h0]; rfl
      rw [picRunRow, if_neg (by decide), picMixed, if_neg (by omega)]
      simp only [a1]
      rw [a2.more (by omega), if_neg (by decide), if_pos (by omega), if_pos h128, if_pos h128, d1, if_neg (by omega)]
      obtain ⟨q, b1, b2, b3⟩ := picRepeat_ok (at_ := at_) (count := num16 file (k + 1)) (m := m) hn d2 (by omega) (by omega)
      rw [b1, Outcome.bind_ok]
      obtain ⟨q', c1, c2, c3⟩ := ih (rounds := r) (at_ := at_ + 4 * num16 file (k + 1)) (m := q.1) b3 (by rw [b2.size]; omega) (by omega)
      rw [picRunRow, if_neg (by decide)] at c1
      rw [show num16 file (k + 1) + l.length - num16 file (k + 1) = l.length by omega]
      exact ⟨q', c1, b2.append (by omega) (by rw [List.length_replicate]; exact c2), c3⟩
  | copy k l k' h0 hk hp ih =>
    intro rounds at_ m s hs hm hr
    rw [List.length_append, List.length_map, List.length_range] at hm hr ⊢
    have hpos : n ≤ ((byteAt file k).toNat + 1) * n := Nat.le_mul_of_pos_left _ (by omega)
    obtain ⟨a1, a2⟩ := hs.get (by omega)
    cases rounds with
    | zero => omega
    | succ r =>
      rw [picRunRow, if_neg (by decide), picMixed, if_neg (by omega)]
      simp only [a1]
      rw [a2.more (by omega), if_neg (by decide), if_neg (by omega), if_neg (by omega)]
      obtain ⟨q, b1, b2, b3⟩ := picCopy_ok (at_ := at_) (count := (byteAt file k).toNat + 1) (m := m) hn a2 hk (by omega)
      rw [b1, Outcome.bind_ok]
      obtain ⟨q', c1, c2, c3⟩ := ih (rounds := r) (at_ := at_ + 4 * ((byteAt file k).toNat + 1)) (m := q.1) b3 (by rw [b2.size]; omega) (by omega)
      rw [picRunRow, if_neg (by decide)] at c1
      rw [show (byteAt file k).toNat + 1 + l.length - ((byteAt file k).toNat + 1) = l.length by omega]
      exact ⟨q', c1, b2.append (by omega) (by rw [List.length_map, List.length_range]; exact c2), c3⟩

/-- **C162** (what holds) A PIC file of one packet of red, green, blue and maybe alpha whose rows are in runs, of either kind and in whatever way, is read as the picture that it holds, of any size. -/
theorem C162_runs (rounds room n x y : Nat) (kind : UInt8) (file : List UInt8) (ks : Nat → Nat) (ls : Nat → List Nat) (hn : n = 3 ∨ n = 4) (hkind : kind = 1 ∨ kind = 2)
    (hf : IsPic file x y) (hps : PicPackets file 104 [(kind, if n = 4 then 0xF0 else 0xE0)] 108) (hsize : x * y * 4 < 2 ^ 31) (hroom : x * y * 4 ≤ room) (hr : x < rounds)
    (h0 : ks 0 = 108) (hl : ∀ Y < y, (ls Y).length = x ∧ PicRuns file n kind (ks Y) (ls Y) (ks (Y + 1))) :
    ∃ i, loadPic rounds room file = .ok i ∧ i.x = x ∧ i.y = y ∧ i.n = n ∧ i.out.size = x * y * n ∧
      ∀ Y < y, ∀ X < x, ∀ c < n, load i.out ((Y * x + X) * n + c) = .ok (file.getD ((ls Y).getD X 0 + c) 0) := by
  obtain ⟨s, hs, hld⟩ := pic_of hf hps (by simp)
  rw [hld rounds room hsize hroom]
  have hlt : ∀ Y < y, ∀ X < x, Y * x + X < x * y := fun Y hY X hX => by
    have : (Y + 1) * x ≤ y * x := Nat.mul_le_mul_right _ hY
    rw [Nat.add_mul, Nat.one_mul, Nat.mul_comm y] at this
    omega
  obtain ⟨q, a1, a2, a3, _⟩ := loop_inv (n := y) (s := ((⟨x * y * 4, fun _ => some 255⟩ : Buf), s))
    (f := fun j (q : Buf × Ctx) => picRows rounds x (j * x * 4) [(kind, if n = 4 then 0xF0 else 0xE0)] q.1 q.2)
    (P := fun (t : Nat) (q : Buf × Ctx) => q.1.size = x * y * 4 ∧
      (∀ Y < t, ∀ X < x, ∀ c < n, q.1.at_ ((Y * x + X) * 4 + c) = some (byteAt file ((ls Y).getD X 0 + c))) ∧ At file (ks t) q.2)
    ⟨rfl, fun Y hY => absurd hY (by omega), by rw [h0]; exact hs⟩ (by
      rintro t ht q1 ⟨g1, g2, g3⟩
      obtain ⟨e1, e2⟩ := hl t ht
      have e3 : t * x + x ≤ x * y := by
        have : (t + 1) * x ≤ y * x := Nat.mul_le_mul_right _ ht
        rw [Nat.add_mul, Nat.one_mul, Nat.mul_comm y] at this
        exact this
      obtain ⟨q2, b1, b2, b3⟩ := picRuns_ok hn e2 (rounds := rounds) (at_ := t * x * 4) (m := q1.1) g3 (by omega) (by omega)
      rw [e1, picMask] at b1
      refine ⟨q2, ?_, by rw [b2.size, g1], fun Y hY X hX c hc => ?_, b3⟩
      · simp only [picRows, picRow]
        rcases hkind with rfl | rfl
        · rw [picRunRow, if_pos rfl] at b1
          rw [if_neg (by decide), if_pos rfl, b1]
          rfl
        · rw [picRunRow, if_neg (by decide)] at b1
          rw [if_neg (by decide), if_neg (by decide), if_pos rfl, b1]
          rfl
      · by_cases hYt : Y = t
        · subst hYt
          rw [← b2.here X (by omega) c hc]
          congr 1
          ring
        · have : (Y + 1) * x ≤ t * x := Nat.mul_le_mul_right _ (by omega)
          rw [Nat.add_mul, Nat.one_mul] at this
          rw [b2.else_ _ (by omega)]
          exact g2 Y (by omega) X hX c hc)
  rw [a1]
  rcases hn with rfl | rfl
  · have e : 3 * x * y = 3 * (x * y) := Nat.mul_assoc _ _ _
    obtain ⟨m, b1, b2, b3⟩ := picDrop_ok (x := x) (y := y) (v := fun i c => byteAt file ((ls (i / x)).getD (i % x) 0 + c)) a2 (fun i hi c hc => by
      have hx : 0 < x := Nat.pos_of_ne_zero (by rintro rfl; omega)
      have := a3 (i / x) (Nat.div_lt_of_lt_mul hi) (i % x) (Nat.mod_lt _ hx) c (by omega)
      rw [Nat.mul_comm (i / x), Nat.div_add_mod] at this
      exact this)
    rw [show picComp [(kind, if 3 = 4 then 0xF0 else 0xE0)] = 3 from picComp_ne (by
      intro p hp
      rw [List.mem_singleton.1 hp]
      show (if 3 = 4 then (0xF0 : UInt8) else 0xE0).toNat.testBit 4 = false
      decide)]
    simp only [picEnd]
    rw [if_neg (by decide), if_neg (by omega), b1, Outcome.bind_ok]
    refine ⟨_, rfl, rfl, rfl, rfl, b2, fun Y hY X hX c hc => ?_⟩
    have hlt' := hlt Y hY X hX
    have hb := b3 _ hlt' c hc
    have hx : 0 < x := by omega
    rw [Nat.mul_comm Y x, Nat.mul_add_div hx, Nat.div_eq_of_lt hX, Nat.add_zero, Nat.mul_add_mod, Nat.mod_eq_of_lt hX, Nat.mul_comm x Y] at hb
    simp only
    rw [load, if_pos (by omega), hb]
    rfl
  · rw [show picComp [(kind, if 4 = 4 then 0xF0 else 0xE0)] = 4 by
    rw [picComp, if_pos]
    refine List.any_eq_true.2 ⟨_, List.mem_singleton.2 rfl, ?_⟩
    show (if 4 = 4 then (0xF0 : UInt8) else 0xE0).toNat.testBit 4 = true
    decide]
    simp only [picEnd]
    rw [if_pos trivial]
    refine ⟨_, rfl, rfl, rfl, rfl, a2, fun Y hY X hX c hc => ?_⟩
    have := hlt Y hY X hX
    simp only
    rw [load, if_pos (by omega), a3 Y hY X hX c hc]
    rfl

/-- two pixels, in one run -/
example : ∃ i, loadPic 100 100 (picFile [0, 8, 1, 0xE0] [2, 7, 8, 9]) = .ok i ∧ i.x = 2 ∧ i.y = 1 ∧ i.n = 3 ∧ load i.out 0 = .ok 7 ∧ load i.out 5 = .ok 9 := by
  obtain ⟨i, a1, a2, a3, a4, _, a6⟩ := C162_runs 100 100 3 2 1 1 (picFile [0, 8, 1, 0xE0] [2, 7, 8, 9]) (fun Y => if Y = 0 then 108 else 112) (fun _ => [109, 109]) (.inl rfl)
    (.inl rfl) ⟨by decide, by decide, by decide, by decide, by decide⟩ (.last 104 (by decide) (by decide) (by decide)) (by decide) (by decide) (by decide) rfl (by
      intro Y hY
      have : Y = 0 := by omega
      subst this
      exact ⟨rfl, .pure 108 [] 112 (by decide) (by decide) (.nil _ _)⟩)
  exact ⟨i, a1, a2, a3, a4, a6 0 (by decide) 0 (by decide) 0 (by decide), a6 0 (by decide) 1 (by decide) 2 (by decide)⟩

/-- two pixels with alpha, a long run of one and then one as it is -/
example : ∃ i, loadPic 100 100 (picFile [0, 8, 2, 0xF0] [128, 0, 1, 7, 8, 9, 10, 0, 1, 2, 3, 4]) = .ok i ∧ i.n = 4 ∧ load i.out 3 = .ok 10 ∧ load i.out 4 = .ok 1 := by
  obtain ⟨i, a1, _, _, a4, _, a6⟩ := C162_runs 100 100 4 2 1 2 (picFile [0, 8, 2, 0xF0] [128, 0, 1, 7, 8, 9, 10, 0, 1, 2, 3, 4]) (fun Y => if Y = 0 then 108 else 120)
    (fun _ => [111, 116]) (.inr rfl) (.inr rfl) ⟨by decide, by decide, by decide, by decide, by decide⟩ (.last 104 (by decide) (by decide) (by decide)) (by decide) (by decide)
    (by decide) rfl (by
      intro Y hY
      have : Y = 0 := by omega
      subst this
      exact ⟨rfl, .long 108 [116] 120 (by decide) (by decide) (by decide) (.copy 115 [] 120 (by decide) (by decide) (.nil _ _))⟩)
  exact ⟨i, a1, a4, a6 0 (by decide) 0 (by decide) 3 (by decide), a6 0 (by decide) 1 (by decide) 0 (by decide)⟩

end Verif.Png
