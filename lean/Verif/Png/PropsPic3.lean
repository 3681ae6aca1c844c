import Verif.Png.PropsPic2

/-! # C162, continued: PIC pictures of any packets -/

namespace Verif.Png

/-- whether a packet has a channel -/
def hasChan (ch : UInt8) (c : Nat) : Bool := ch.toNat.testBit (7 - c)

/-- how many channels of a packet come before a channel -/
def rank (ch : UInt8) (c : Nat) : Nat := ((List.range c).filter (hasChan ch)).length

/-- what is read at a place of the file -/
def picVal (file : List UInt8) (ch : UInt8) : List Nat → Nat → List (Nat × UInt8)
  | [], _ => []
  | c :: cs, k => if hasChan ch c then (c, byteAt file k) :: picVal file ch cs (k + 1) else picVal file ch cs k

theorem picRead_gen {file : List UInt8} {ch : UInt8} : ∀ (cs : List Nat) {k : Nat} {s : Ctx}, At file k s → k + (cs.filter (hasChan ch)).length ≤ file.length →
    ∃ s', picRead ch cs s = some (picVal file ch cs k, s') ∧ At file (k + (cs.filter (hasChan ch)).length) s'
  | [], k, s, hs, _ => ⟨s, rfl, hs⟩
  | c :: cs, k, s, hs, hk => by
    rw [picRead, picVal]
    by_cases hc : hasChan ch c = true
    · rw [List.filter_cons_of_pos hc, List.length_cons] at hk ⊢
      obtain ⟨a1, a2⟩ := hs.get (by omega)
      obtain ⟨s', b1, b2⟩ := picRead_gen (ch := ch) cs a2 (by omega)
      rw [hasChan] at hc
      rw [if_pos hc, hs.more (by omega), if_neg (by decide), b1, a1, hasChan, if_pos hc]
      refine ⟨s', rfl, ?_⟩
      rw [show k + ((cs.filter (hasChan ch)).length + 1) = k + 1 + (cs.filter (hasChan ch)).length by omega]
      exact b2
    · rw [List.filter_cons_of_neg hc] at hk ⊢
      obtain ⟨s', b1, b2⟩ := picRead_gen cs hs hk
      rw [hasChan] at hc
      rw [if_neg hc, b1, hasChan, if_neg hc]
      exact ⟨s', rfl, b2⟩

theorem picVal_keys {file : List UInt8} {ch : UInt8} : ∀ (cs : List Nat) (k : Nat), cs.Nodup → ((picVal file ch cs k).map Prod.fst).Nodup ∧ ∀ p ∈ picVal file ch cs k, p.1 ∈ cs
  | [], _, _ => ⟨List.nodup_nil, fun p hp => by cases hp⟩
  | c :: cs, k, h => by
    obtain ⟨h1, h2⟩ := List.nodup_cons.1 h
    rw [picVal]
    by_cases hc : hasChan ch c = true
    · rw [if_pos hc]
      obtain ⟨a1, a2⟩ := picVal_keys (file := file) (ch := ch) cs (k + 1) h2
      refine ⟨List.nodup_cons.2 ⟨fun hm => ?_, a1⟩, fun p hp => ?_⟩
      · obtain ⟨p, hp, hpc⟩ := List.mem_map.1 hm
        have hpc' : p.1 = c := hpc
        exact h1 (hpc' ▸ a2 p hp)
      · rcases List.mem_cons.1 hp with rfl | hp
        · exact List.mem_cons_self
        · exact List.mem_cons_of_mem _ (a2 p hp)
    · rw [if_neg hc]
      obtain ⟨a1, a2⟩ := picVal_keys (file := file) (ch := ch) cs k h2
      exact ⟨a1, fun p hp => List.mem_cons_of_mem _ (a2 p hp)⟩

theorem picPut_gen {at_ : Nat} : ∀ (vals : List (Nat × UInt8)) {m : Buf}, (vals.map Prod.fst).Nodup → (∀ p ∈ vals, p.1 < 4) → at_ + 4 ≤ m.size →
    ∃ m', picPut at_ vals m = .ok m' ∧ m'.size = m.size ∧ (∀ p ∈ vals, m'.at_ (at_ + p.1) = some p.2) ∧
      ∀ j, (∀ p ∈ vals, j ≠ at_ + p.1) → m'.at_ j = m.at_ j
  | [], m, _, _, _ => ⟨m, rfl, rfl, fun p hp => (by cases hp), fun _ _ => rfl⟩
  | (c, v) :: r, m, hd, hk, hm => by
    obtain ⟨h1, h2⟩ := List.nodup_cons.1 hd
    have hc := hk _ List.mem_cons_self
    simp only at hc
    obtain ⟨m1, a1, a2, a3, a4⟩ := store_ok (m := m) (i := at_ + c) v (by omega)
    obtain ⟨m2, b1, b2, b3, b4⟩ := picPut_gen (at_ := at_) r (m := m1) h2 (fun p hp => hk p (List.mem_cons_of_mem _ hp)) (by omega)
    refine ⟨m2, by rw [picPut, a1, Outcome.bind_ok, b1], by omega, fun p hp => ?_, fun j hj => ?_⟩
    · rcases List.mem_cons.1 hp with rfl | hp
      · rw [b4 _ (fun p hp h => ?_), a3]
        have : c = p.1 := by simpa using h
        exact h1 (List.mem_map.2 ⟨p, hp, this.symm⟩)
      · exact b3 p hp
    · rw [b4 j (fun p hp => hj p (List.mem_cons_of_mem _ hp)), a4 j (hj _ List.mem_cons_self)]

theorem picVal_mem {file : List UInt8} {ch : UInt8} {k c : Nat} (hc : c < 4) (h : hasChan ch c = true) : (c, byteAt file (k + rank ch c)) ∈ picVal file ch [0, 1, 2, 3] k := by
  match c, hc with
  | 0, _ => simp [picVal, rank, h]
  | 1, _ => cases h0 : hasChan ch 0 <;> simp [picVal, rank, h, h0, List.range_succ]
  | 2, _ => cases h0 : hasChan ch 0 <;> cases h1 : hasChan ch 1 <;> simp [picVal, rank, h, h0, h1, List.range_succ]
  | 3, _ => cases h0 : hasChan ch 0 <;> cases h1 : hasChan ch 1 <;> cases h2 : hasChan ch 2 <;> simp [picVal, rank, h, h0, h1, h2, List.range_succ]

theorem picVal_has {file : List UInt8} {ch : UInt8} : ∀ {cs : List Nat} {k : Nat} {p : Nat × UInt8}, p ∈ picVal file ch cs k → hasChan ch p.1 = true
  | [], _, _, hp => by cases hp
  | c :: cs, k, p, hp => by
    rw [picVal] at hp
    by_cases hc : hasChan ch c = true
    · rw [if_pos hc] at hp
      rcases List.mem_cons.1 hp with rfl | hp
      · exact hc
      · exact picVal_has hp
    · rw [if_neg hc] at hp
      exact picVal_has hp

/-- pixels from `at_` on have the channels of a packet from the places of the list, and nothing else has changed -/
structure Over (file : List UInt8) (ch : UInt8) (at_ : Nat) (l : List Nat) (m m' : Buf) : Prop where
  size : m'.size = m.size
  here : ∀ i < l.length, ∀ c < 4, m'.at_ (at_ + 4 * i + c) = if hasChan ch c then some (byteAt file (l.getD i 0 + rank ch c)) else m.at_ (at_ + 4 * i + c)
  else_ : ∀ j, j < at_ ∨ at_ + 4 * l.length ≤ j → m'.at_ j = m.at_ j

theorem Over.nil (file : List UInt8) (ch : UInt8) (at_ : Nat) (m : Buf) : Over file ch at_ [] m m := ⟨rfl, fun i hi => absurd hi (by simp), fun _ _ => rfl⟩

theorem Over.append {file : List UInt8} {ch : UInt8} {at_ : Nat} {l l' : List Nat} {m m1 m2 : Buf} (h1 : Over file ch at_ l m m1)
    (h2 : Over file ch (at_ + 4 * l.length) l' m1 m2) : Over file ch at_ (l ++ l') m m2 := by
  refine ⟨by rw [h2.size, h1.size], fun i hi c hc => ?_, fun j hj => ?_⟩
  · rw [List.length_append] at hi
    by_cases h : i < l.length
    · rw [h2.else_ _ (by omega), h1.here i h c hc, List.getD_eq_getElem?_getD, List.getD_eq_getElem?_getD, List.getElem?_append_left h]
    · have := h2.here (i - l.length) (by omega) c hc
      rw [show at_ + 4 * l.length + 4 * (i - l.length) + c = at_ + 4 * i + c by omega, h1.else_ _ (by omega)] at this
      rw [this, List.getD_eq_getElem?_getD, List.getD_eq_getElem?_getD, List.getElem?_append_right (by omega)]
  · rw [List.length_append] at hj
    rw [h2.else_ _ (by omega), h1.else_ _ (by omega)]

theorem put_over {file : List UInt8} {ch : UInt8} {k at_ : Nat} {m : Buf} (hm : at_ + 4 ≤ m.size) :
    ∃ m', picPut at_ (picVal file ch [0, 1, 2, 3] k) m = .ok m' ∧ Over file ch at_ [k] m m' := by
  obtain ⟨k1, k2⟩ := picVal_keys (file := file) (ch := ch) [0, 1, 2, 3] k (by decide)
  have k3 : ∀ p ∈ picVal file ch [0, 1, 2, 3] k, p.1 < 4 := fun p hp => by
    have := k2 p hp
    simp at this
    omega
  obtain ⟨m', a1, a2, a3, a4⟩ := picPut_gen (at_ := at_) (picVal file ch [0, 1, 2, 3] k) (m := m) k1 k3 hm
  refine ⟨m', a1, a2, fun i hi c hc => ?_, fun j hj => ?_⟩
  · have : i = 0 := by simpa using hi
    subst this
    by_cases h : hasChan ch c = true
    · rw [if_pos h]
      exact a3 _ (picVal_mem hc h)
    · rw [if_neg h]
      refine a4 _ (fun p hp he => ?_)
      have : c = p.1 := by omega
      exact h (this ▸ picVal_has hp)
  · refine a4 _ (fun p hp he => ?_)
    have := k3 p hp
    simp at hj
    omega

/-- how many channels a packet has -/
def chans (ch : UInt8) : Nat := rank ch 4

theorem chans_eq (ch : UInt8) : ([0, 1, 2, 3].filter (hasChan ch)).length = chans ch := rfl

theorem repeat_over {file : List UInt8} {ch : UInt8} {k at_ count : Nat} {m : Buf} {s : Ctx} (hs : At file k s) (hk : k + chans ch ≤ file.length)
    (hm : at_ + 4 * count ≤ m.size) : ∃ q, picRepeat ch at_ count m s = .ok q ∧ Over file ch at_ (List.replicate count k) m q.1 ∧ At file (k + chans ch) q.2 := by
  obtain ⟨s', b1, b2⟩ := picRead_gen (ch := ch) [0, 1, 2, 3] hs hk
  simp only [picRepeat, b1]
  obtain ⟨m', c0, c1⟩ := loop_inv (f := fun i m => picPut (at_ + 4 * i) (picVal file ch [0, 1, 2, 3] k) m) (n := count) (s := m)
    (P := fun (t : Nat) (m' : Buf) => Over file ch at_ (List.replicate t k) m m') (Over.nil _ _ _ _) (by
      rintro t ht m1 h1
      obtain ⟨m2, a1, a2⟩ := put_over (file := file) (ch := ch) (k := k) (at_ := at_ + 4 * t) (m := m1) (by rw [h1.size]; omega)
      refine ⟨m2, a1, ?_⟩
      rw [List.replicate_succ']
      exact h1.append (by rw [List.length_replicate]; exact a2))
  rw [c0, Outcome.bind_ok]
  exact ⟨_, rfl, c1, b2⟩

theorem copy_over {file : List UInt8} {ch : UInt8} {k at_ count : Nat} {m : Buf} {s : Ctx} (hs : At file k s) (hk : k + count * chans ch ≤ file.length)
    (hm : at_ + 4 * count ≤ m.size) : ∃ q, loop count (fun i q => picPixel ch (at_ + 4 * i) q.1 q.2) (m, s) = .ok q ∧
      Over file ch at_ ((List.range count).map fun i => k + i * chans ch) m q.1 ∧ At file (k + count * chans ch) q.2 := by
  refine loop_inv (P := fun (t : Nat) (q : Buf × Ctx) => Over file ch at_ ((List.range t).map fun i => k + i * chans ch) m q.1 ∧ At file (k + t * chans ch) q.2)
    ⟨Over.nil _ _ _ _, by rw [Nat.zero_mul]; exact hs⟩ ?_
  rintro t ht q1 ⟨h1, h2⟩
  have e : k + t * chans ch + chans ch ≤ file.length := by
    have : (t + 1) * chans ch ≤ count * chans ch := Nat.mul_le_mul_right _ ht
    rw [Nat.add_mul, Nat.one_mul] at this
    omega
  obtain ⟨s', b1, b2⟩ := picRead_gen (ch := ch) [0, 1, 2, 3] h2 e
  obtain ⟨m2, a1, a2⟩ := put_over (file := file) (ch := ch) (k := k + t * chans ch) (at_ := at_ + 4 * t) (m := q1.1) (by rw [h1.size]; omega)
  refine ⟨(m2, s'), by simp only [picPixel, b1]; rw [a1, Outcome.bind_ok], ?_, by rw [Nat.add_mul, Nat.one_mul, ← Nat.add_assoc]; exact b2⟩
  rw [List.range_succ, List.map_append]
  exact h1.append (by rw [List.length_map, List.length_range]; exact a2)

theorem runs_over {file : List UInt8} {ch : UInt8} (hn : 0 < chans ch) {kind : UInt8} {k k' : Nat} {l : List Nat} (h : PicRuns file (chans ch) kind k l k') :
    ∀ {rounds at_ : Nat} {m : Buf} {s : Ctx}, At file k s → at_ + 4 * l.length ≤ m.size → l.length < rounds →
      ∃ q, picRunRow ch kind rounds at_ l.length m s = .ok q ∧ Over file ch at_ l m q.1 ∧ At file k' q.2 := by
  induction h with
  | nil kind k =>
    intro rounds at_ m s hs hm hr
    refine ⟨(m, s), ?_, Over.nil _ _ _ _, hs⟩
    cases rounds with
    | zero => omega
    | succ r =>
      rw [picRunRow]
      split
      · rw [picPure, if_pos List.length_nil]
      · rw [picMixed, if_pos List.length_nil]
  | pure k l k' h0 hk hp ih =>
    intro rounds at_ m s hs hm hr
    rw [List.length_append, List.length_replicate] at hm hr ⊢
    have hb : 0 < (byteAt file k).toNat := by
      rcases Nat.eq_zero_or_pos (byteAt file k).toNat with h | h
      · exact absurd (UInt8.toNat_inj.1 h) h0
      · exact h
    obtain ⟨a1, a2⟩ := hs.get (by omega)
    cases rounds with
    | zero => omega
    | succ r =>
      rw [picRunRow, if_pos rfl, picPure, if_neg (by omega), a2.more (by omega), if_neg (by decide)]
      simp only [a1]
      rw [show min (byteAt file k).toNat ((byteAt file k).toNat + l.length) = (byteAt file k).toNat by omega]
      obtain ⟨q, b1, b2, b3⟩ := repeat_over (ch := ch) (at_ := at_) (count := (byteAt file k).toNat) (m := m) a2 hk (by omega)
      rw [b1, Outcome.bind_ok]
      obtain ⟨q', c1, c2, c3⟩ := ih (rounds := r) (at_ := at_ + 4 * (byteAt file k).toNat) (m := q.1) b3 (by rw [b2.size]; omega) (by omega)
      rw [picRunRow, if_pos rfl] at c1
      rw [show (byteAt file k).toNat + l.length - (byteAt file k).toNat = l.length by omega]
      exact ⟨q', c1, b2.append (by rw [List.length_replicate]; exact c2), c3⟩
  | run k l k' h0 hk hp ih =>
    intro rounds at_ m s hs hm hr
    rw [List.length_append, List.length_replicate] at hm hr ⊢
    obtain ⟨a1, a2⟩ := hs.get (by omega)
    cases rounds with
    | zero => omega
    | succ r =>
      rw [picRunRow, if_neg (by decide), picMixed, if_neg (by omega)]
      simp only [a1]
      rw [a2.more (by omega), if_neg (by decide), if_pos (by omega), if_neg (show ¬ (byteAt file k).toNat = 128 by omega),
        if_neg (show ¬ (byteAt file k).toNat = 128 by omega), if_neg (by omega)]
      obtain ⟨q, b1, b2, b3⟩ := repeat_over (ch := ch) (at_ := at_) (count := (byteAt file k).toNat - 127) (m := m) a2 hk (by omega)
      rw [b1, Outcome.bind_ok]
      obtain ⟨q', c1, c2, c3⟩ := ih (rounds := r) (at_ := at_ + 4 * ((byteAt file k).toNat - 127)) (m := q.1) b3 (by rw [b2.size]; omega) (by omega)
      rw [picRunRow, if_neg (by decide)] at c1
      rw [show (byteAt file k).toNat - 127 + l.length - ((byteAt file k).toNat - 127) = l.length by omega]
      exact ⟨q', c1, b2.append (by rw [List.length_replicate]; exact c2), c3⟩
  | long k l k' h0 h1 hk hp ih =>
    intro rounds at_ m s hs hm hr
    rw [List.length_append, List.length_replicate] at hm hr ⊢
    obtain ⟨a1, a2⟩ := hs.get (by omega)
    obtain ⟨d1, d2⟩ := a2.num16 (by omega)
    cases rounds with
    | zero => omega
    | succ r =>
      have h128 : (byteAt file k).toNat = 128 := by rw [h0]; rfl
      rw [picRunRow, if_neg (by decide), picMixed, if_neg (by omega)]
      simp only [a1]
      rw [a2.more (by omega), if_neg (by decide), if_pos (by omega), if_pos h128, if_pos h128, d1, if_neg (by omega)]
      obtain ⟨q, b1, b2, b3⟩ := repeat_over (ch := ch) (at_ := at_) (count := num16 file (k + 1)) (m := m) d2 (by omega) (by omega)
      rw [b1, Outcome.bind_ok]
      obtain ⟨q', c1, c2, c3⟩ := ih (rounds := r) (at_ := at_ + 4 * num16 file (k + 1)) (m := q.1) b3 (by rw [b2.size]; omega) (by omega)
      rw [picRunRow, if_neg (by decide)] at c1
      rw [show num16 file (k + 1) + l.length - num16 file (k + 1) = l.length by omega]
      exact ⟨q', c1, b2.append (by rw [List.length_replicate]; exact c2), c3⟩
  | copy k l k' h0 hk hp ih =>
    intro rounds at_ m s hs hm hr
    rw [List.length_append, List.length_map, List.length_range] at hm hr ⊢
    have hpos : chans ch ≤ ((byteAt file k).toNat + 1) * chans ch := Nat.le_mul_of_pos_left _ (by omega)
    obtain ⟨a1, a2⟩ := hs.get (by omega)
    cases rounds with
    | zero => omega
    | succ r =>
      rw [picRunRow, if_neg (by decide), picMixed, if_neg (by omega)]
      simp only [a1]
      rw [a2.more (by omega), if_neg (by decide), if_neg (by omega), if_neg (by omega)]
      obtain ⟨q, b1, b2, b3⟩ := copy_over (ch := ch) (at_ := at_) (count := (byteAt file k).toNat + 1) (m := m) a2 hk (by omega)
      rw [b1, Outcome.bind_ok]
      obtain ⟨q', c1, c2, c3⟩ := ih (rounds := r) (at_ := at_ + 4 * ((byteAt file k).toNat + 1)) (m := q.1) b3 (by rw [b2.size]; omega) (by omega)
      rw [picRunRow, if_neg (by decide)] at c1
      rw [show (byteAt file k).toNat + 1 + l.length - ((byteAt file k).toNat + 1) = l.length by omega]
      exact ⟨q', c1, b2.append (by rw [List.length_map, List.length_range]; exact c2), c3⟩

/-- the part of a packet in a row, at a place of the file: where the pixels are, and where it ends -/
def RowAt (file : List UInt8) (x : Nat) (kind ch : UInt8) (k : Nat) (l : List Nat) (k' : Nat) : Prop :=
  kind = 0 ∧ l = (List.range x).map (fun i => k + i * chans ch) ∧ k' = k + x * chans ch ∧ k' ≤ file.length ∨
    (kind = 1 ∨ kind = 2) ∧ l.length = x ∧ PicRuns file (chans ch) kind k l k'

/-- a row: the parts of all packets, one after the other -/
inductive PicLine (file : List UInt8) (x : Nat) : List (UInt8 × UInt8) → Nat → List (List Nat) → Nat → Prop
  | nil (k : Nat) : PicLine file x [] k [] k
  | cons (kind ch : UInt8) (ps : List (UInt8 × UInt8)) (k : Nat) (l : List Nat) (k1 : Nat) (ls : List (List Nat)) (k' : Nat) : 0 < chans ch → RowAt file x kind ch k l k1 →
      PicLine file x ps k1 ls k' → PicLine file x ((kind, ch) :: ps) k (l :: ls) k'

/-- a sample of a pixel: what the last packet with this channel has, or `v` if none has it -/
def picSample (file : List UInt8) (X c : Nat) : List (UInt8 × UInt8) → List (List Nat) → UInt8 → UInt8
  | (_, ch) :: ps, l :: ls, v => picSample file X c ps ls (if hasChan ch c then byteAt file (l.getD X 0 + rank ch c) else v)
  | _, _, v => v

theorem rowAt_ok {file : List UInt8} {x k k' at_ rounds : Nat} {kind ch : UInt8} {l : List Nat} {m : Buf} {s : Ctx} (hn : 0 < chans ch) (h : RowAt file x kind ch k l k')
    (hs : At file k s) (hm : at_ + 4 * x ≤ m.size) (hr : x < rounds) :
    l.length = x ∧ ∃ q, picRow rounds x kind ch at_ m s = .ok q ∧ Over file ch at_ l m q.1 ∧ At file k' q.2 := by
  rcases h with ⟨rfl, rfl, rfl, h⟩ | ⟨hk, hl, h⟩
  · refine ⟨by rw [List.length_map, List.length_range], ?_⟩
    rw [picRow, if_pos rfl]
    exact copy_over hs h hm
  · refine ⟨hl, ?_⟩
    obtain ⟨q, a1, a2, a3⟩ := runs_over hn h (rounds := rounds) (at_ := at_) (m := m) hs (by omega) (by omega)
    rw [hl] at a1
    refine ⟨q, ?_, a2, a3⟩
    rw [picRow]
    rcases hk with rfl | rfl
    · rw [if_neg (by decide), if_pos rfl]
      rw [picRunRow, if_pos rfl] at a1
      exact a1
    · rw [if_neg (by decide), if_neg (by decide), if_pos rfl]
      rw [picRunRow, if_neg (by decide)] at a1
      exact a1

theorem line_ok {file : List UInt8} {x at_ rounds : Nat} (hr : x < rounds) {ps : List (UInt8 × UInt8)} {k k' : Nat} {ls : List (List Nat)} (h : PicLine file x ps k ls k') :
    ∀ {m : Buf} {s : Ctx} {v : Nat → Nat → UInt8}, At file k s → at_ + 4 * x ≤ m.size → (∀ X < x, ∀ c < 4, m.at_ (at_ + 4 * X + c) = some (v X c)) →
      ∃ q, picRows rounds x at_ ps m s = .ok q ∧ q.1.size = m.size ∧ (∀ X < x, ∀ c < 4, q.1.at_ (at_ + 4 * X + c) = some (picSample file X c ps ls (v X c))) ∧
        (∀ j, j < at_ ∨ at_ + 4 * x ≤ j → q.1.at_ j = m.at_ j) ∧ At file k' q.2 := by
  induction h with
  | nil k =>
    intro m s v hs hm hv
    exact ⟨(m, s), rfl, rfl, hv, fun _ _ => rfl, hs⟩
  | cons kind ch ps k l k1 ls k' hn hrow _ ih =>
    intro m s v hs hm hv
    obtain ⟨hl, q, a1, a2, a3⟩ := rowAt_ok hn hrow hs hm hr
    obtain ⟨q', b1, b2, b3, b4, b5⟩ := ih (m := q.1) (v := fun X c => if hasChan ch c then byteAt file (l.getD X 0 + rank ch c) else v X c) a3 (by rw [a2.size]; exact hm)
      (fun X hX c hc => by
        rw [a2.here X (by omega) c hc, hv X hX c hc]
        by_cases h : hasChan ch c = true
        · rw [if_pos h, if_pos h]
        · rw [if_neg h, if_neg h])
    refine ⟨q', by rw [picRows, a1, Outcome.bind_ok, b1], by rw [b2, a2.size], b3, fun j hj => ?_, b5⟩
    rw [b4 j hj, a2.else_ j (by omega)]

/-- **C162** (what holds) A PIC file of any packets, up to ten, each with its own channels and its own kind of runs, is read as the picture that it holds, of any size: a sample is what the last packet
with this channel has, 255 if there is none; the picture has alpha if a packet has. -/
theorem C162_packets (rounds room n x y k : Nat) (ps : List (UInt8 × UInt8)) (file : List UInt8) (ks : Nat → Nat) (ls : Nat → List (List Nat)) (hf : IsPic file x y)
    (hps : PicPackets file 104 ps k) (hten : ps.length ≤ 10) (hn : n = if (∃ p ∈ ps, hasChan p.2 3 = true) then 4 else 3) (hsize : x * y * 4 < 2 ^ 31) (hroom : x * y * 4 ≤ room)
    (hr : x < rounds) (h0 : ks 0 = k) (hl : ∀ Y < y, PicLine file x ps (ks Y) (ls Y) (ks (Y + 1))) :
    ∃ i, loadPic rounds room file = .ok i ∧ i.x = x ∧ i.y = y ∧ i.n = n ∧ i.out.size = x * y * n ∧
      ∀ Y < y, ∀ X < x, ∀ c < n, load i.out ((Y * x + X) * n + c) = .ok (picSample file X c ps (ls Y) 255) := by
  obtain ⟨s, hs, hld⟩ := pic_of hf hps hten
  rw [hld rounds room hsize hroom]
  have hlt : ∀ Y < y, ∀ X < x, Y * x + X < x * y := fun Y hY X hX => by
    have : (Y + 1) * x ≤ y * x := Nat.mul_le_mul_right _ hY
    rw [Nat.add_mul, Nat.one_mul, Nat.mul_comm y] at this
    omega
  obtain ⟨q, a1, a2, a3, _⟩ := loop_inv (n := y) (s := ((⟨x * y * 4, fun _ => some 255⟩ : Buf), s))
    (f := fun j (q : Buf × Ctx) => picRows rounds x (j * x * 4) ps q.1 q.2)
    (P := fun (t : Nat) (q : Buf × Ctx) => q.1.size = x * y * 4 ∧
      (∀ Y < t, ∀ X < x, ∀ c < 4, q.1.at_ ((Y * x + X) * 4 + c) = some (picSample file X c ps (ls Y) 255)) ∧ At file (ks t) q.2 ∧ ∀ j, t * x * 4 ≤ j → q.1.at_ j = some 255)
    ⟨rfl, fun Y hY => absurd hY (by omega), by rw [h0]; exact hs, fun _ _ => rfl⟩ (by
      rintro t ht q1 ⟨g1, g2, g3, g4⟩
      have e3 : t * x + x ≤ x * y := by
        have : (t + 1) * x ≤ y * x := Nat.mul_le_mul_right _ ht
        rw [Nat.add_mul, Nat.one_mul, Nat.mul_comm y] at this
        exact this
      obtain ⟨q2, b1, b2, b3, b4, b5⟩ := line_ok (at_ := t * x * 4) hr (hl t ht) (m := q1.1) (v := fun _ _ => 255) g3 (by omega) (fun X hX c hc => g4 _ (by omega))
      refine ⟨q2, b1, by rw [b2, g1], fun Y hY X hX c hc => ?_, b5, fun j hj => ?_⟩
      · by_cases hYt : Y = t
        · subst hYt
          rw [← b3 X hX c hc]
          congr 1
          ring
        · have : (Y + 1) * x ≤ t * x := Nat.mul_le_mul_right _ (by omega)
          rw [Nat.add_mul, Nat.one_mul] at this
          rw [b4 _ (by omega)]
          exact g2 Y (by omega) X hX c hc
      · rw [Nat.add_mul, Nat.one_mul] at hj
        rw [b4 _ (by omega), g4 _ (by omega)])
  rw [a1]
  by_cases halpha : ∃ p ∈ ps, hasChan p.2 3 = true
  · rw [if_pos halpha] at hn
    subst hn
    obtain ⟨p, hp, hpa⟩ := halpha
    have : picComp ps = 4 := by
      rw [picComp, if_pos (List.any_eq_true.2 ⟨p, hp, hpa⟩)]
    rw [this]
    simp only [picEnd]
    rw [if_pos trivial]
    refine ⟨_, rfl, rfl, rfl, rfl, a2, fun Y hY X hX c hc => ?_⟩
    have := hlt Y hY X hX
    simp only
    rw [load, if_pos (by omega), a3 Y hY X hX c hc]
  · rw [if_neg halpha] at hn
    subst hn
    have e : 3 * x * y = 3 * (x * y) := Nat.mul_assoc _ _ _
    obtain ⟨m, b1, b2, b3⟩ := picDrop_ok (x := x) (y := y) (v := fun i c => picSample file (i % x) c ps (ls (i / x)) 255) a2 (fun i hi c hc => by
      have hx : 0 < x := Nat.pos_of_ne_zero (by rintro rfl; omega)
      have := a3 (i / x) (Nat.div_lt_of_lt_mul hi) (i % x) (Nat.mod_lt _ hx) c (by omega)
      rw [Nat.mul_comm (i / x), Nat.div_add_mod] at this
      exact this)
    rw [picComp_ne (fun p hp => by
      cases hb : p.2.toNat.testBit 4 with
      | false => rfl
      | true => exact absurd ⟨p, hp, hb⟩ halpha)]
    simp only [picEnd]
    rw [if_neg (by decide), if_neg (by omega), b1, Outcome.bind_ok]
    refine ⟨_, rfl, rfl, rfl, rfl, b2, fun Y hY X hX c hc => ?_⟩
    have hlt' := hlt Y hY X hX
    have hb := b3 _ hlt' c hc
    have hx : 0 < x := by omega
    rw [Nat.mul_comm Y x, Nat.mul_add_div hx, Nat.div_eq_of_lt hX, Nat.add_zero, Nat.mul_add_mod, Nat.mod_eq_of_lt hX, Nat.mul_comm x Y] at hb
    simp only
    rw [load, if_pos (by omega), hb]

/-- two pixels: the colours in one run of kind 2, alpha as it is -/
example : ∃ i, loadPic 100 100 (picFile [1, 8, 2, 0xE0, 0, 8, 0, 0x10] [129, 7, 8, 9, 50, 60]) = .ok i ∧ i.n = 4 ∧ load i.out 5 = .ok 8 ∧ load i.out 3 = .ok 50 ∧
    load i.out 7 = .ok 60 := by
  obtain ⟨i, a1, _, _, a4, _, a6⟩ := C162_packets 100 100 4 2 1 112 [(2, 0xE0), (0, 0x10)] (picFile [1, 8, 2, 0xE0, 0, 8, 0, 0x10] [129, 7, 8, 9, 50, 60])
    (fun Y => if Y = 0 then 112 else 118) (fun _ => [[113, 113], [116, 117]]) ⟨by decide, by decide, by decide, by decide, by decide⟩
    (.more 104 _ 112 (by decide) (by decide) (.last 108 (by decide) (by decide) (by decide))) (by decide) (by decide) (by decide) (by decide) (by decide) rfl (by
      intro Y hY
      have : Y = 0 := by omega
      subst this
      exact .cons 2 0xE0 _ 112 [113, 113] 116 _ 118 (by decide) (.inr ⟨.inr rfl, rfl, .run 112 [] 116 (by decide) (by decide) (.nil _ _)⟩)
        (.cons 0 0x10 [] 116 [116, 117] 118 [] 118 (by decide) (.inl ⟨rfl, by decide, by decide, by decide⟩) (.nil _)))
  exact ⟨i, a1, a4, a6 0 (by decide) 1 (by decide) 1 (by decide), a6 0 (by decide) 0 (by decide) 3 (by decide), a6 0 (by decide) 1 (by decide) 3 (by decide)⟩

end Verif.Png
