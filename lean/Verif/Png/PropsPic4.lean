import Verif.Png.PropsPic3
import Verif.Png.PnmAny

/-! # C162, continued: any PIC file with alpha -/

namespace Verif.Png

theorem get_eof {s : Ctx} (hs : s.Sound) (h : s.atEof = true) : s.get.2.atEof = true := by
  have he : s.eof = true := by
    cases h' : s.eof with
    | true => rfl
    | false => rw [Ctx.atEof, h'] at h; cases h
  have hr := hs.eof he
  cases hm : s.more with
  | false =>
    rw [Ctx.get, (hs.done hm).2]
    simp only [hm]
    exact h
  | true =>
    have hb : s.buf = [] := by
      rw [Ctx.atEof, he, if_pos rfl, hm, if_pos rfl] at h
      exact List.isEmpty_iff.1 h
    rw [Ctx.get, hb]
    simp only [hm, if_pos, Ctx.refill, hr]
    rfl

theorem get_left {s : Ctx} (hs : s.Sound) : s.get.2.Sound ∧ s.get.2.left ≤ s.left ∧ (s.get.2.atEof = false → s.get.2.left < s.left) := by
  have h := get_any hs
  refine ⟨h.1, ?_, fun h1 => ?_⟩
  · cases he : s.atEof with
    | false => exact Nat.le_of_lt (h.2.2 he)
    | true => rw [Ctx.left, get_eof hs he]; exact Nat.zero_le _
  · cases he : s.atEof with
    | false => exact h.2.2 he
    | true => rw [get_eof hs he] at h1; cases h1

/-- loading has failed, or goes on with memory of the same size -/
def Goes (z a : Nat) (o : Outcome (Buf × Ctx)) : Prop := (∃ e, o = .throws e) ∨ ∃ q, o = .ok q ∧ q.1.size = z ∧ q.2.Sound ∧ q.2.left ≤ a

theorem Goes.bind {z a b : Nat} {o : Outcome (Buf × Ctx)} {f : Buf × Ctx → Outcome (Buf × Ctx)} (h : Goes z a o)
    (hf : ∀ q : Buf × Ctx, q.1.size = z → q.2.Sound → q.2.left ≤ a → Goes z b (f q)) : Goes z b (o >>= f) := by
  rcases h with ⟨e, rfl⟩ | ⟨q, rfl, h1, h2, h3⟩
  · exact .inl ⟨e, rfl⟩
  · rw [Outcome.bind_ok]
    exact hf q h1 h2 h3

theorem Goes.loop {z : Nat} {f : Nat → Buf × Ctx → Outcome (Buf × Ctx)} {N : Nat}
    (hf : ∀ i < N, ∀ q : Buf × Ctx, q.1.size = z → q.2.Sound → Goes z q.2.left (f i q)) :
    ∀ (n i : Nat) (q : Buf × Ctx), i + n ≤ N → q.1.size = z → q.2.Sound → Goes z q.2.left (loopFrom f n i q)
  | 0, _, q, _, h1, h2 => .inr ⟨q, rfl, h1, h2, Nat.le_refl _⟩
  | n + 1, i, q, hi, h1, h2 => by
    rw [loopFrom]
    refine (hf i (by omega) q h1 h2).bind fun q' g1 g2 g3 => ?_
    rcases Goes.loop hf n (i + 1) q' (by omega) g1 g2 with h | ⟨q2, a1, a2, a3, a4⟩
    · exact .inl h
    · exact .inr ⟨q2, a1, a2, a3, by omega⟩

theorem picRead_any {ch : UInt8} : ∀ (cs : List Nat) {s : Ctx}, s.Sound →
    picRead ch cs s = none ∨ ∃ vals s', picRead ch cs s = some (vals, s') ∧ (∀ p ∈ vals, p.1 ∈ cs) ∧ s'.Sound ∧ s'.left ≤ s.left
  | [], s, hs => .inr ⟨[], s, rfl, fun p hp => (by cases hp), hs, Nat.le_refl _⟩
  | c :: cs, s, hs => by
    rw [picRead]
    split
    · split
      · exact .inl rfl
      · obtain ⟨g1, g2, _⟩ := get_left hs
        rcases picRead_any (ch := ch) cs g1 with h | ⟨vals, s', a1, a2, a3, a4⟩
        · rw [h]; exact .inl rfl
        · rw [a1]
          refine .inr ⟨_, _, rfl, fun p hp => ?_, a3, Nat.le_trans a4 g2⟩
          rcases List.mem_cons.1 hp with rfl | hp
          · exact List.mem_cons_self
          · exact List.mem_cons_of_mem _ (a2 p hp)
    · rcases picRead_any (ch := ch) cs hs with h | ⟨vals, s', a1, a2, a3, a4⟩
      · exact .inl h
      · exact .inr ⟨vals, s', a1, fun p hp => List.mem_cons_of_mem _ (a2 p hp), a3, a4⟩

theorem picPut_any {at_ : Nat} : ∀ (vals : List (Nat × UInt8)) {m : Buf}, (∀ p ∈ vals, p.1 ∈ [0, 1, 2, 3]) → at_ + 4 ≤ m.size →
    ∃ m', picPut at_ vals m = .ok m' ∧ m'.size = m.size
  | [], m, _, _ => ⟨m, rfl, rfl⟩
  | (c, v) :: r, m, hk, hm => by
    have hc := hk _ List.mem_cons_self
    simp at hc
    obtain ⟨m1, a1, a2, _⟩ := store_ok (m := m) (i := at_ + c) v (by omega)
    obtain ⟨m2, b1, b2⟩ := picPut_any (at_ := at_) r (m := m1) (fun p hp => hk p (List.mem_cons_of_mem _ hp)) (by omega)
    exact ⟨m2, by rw [picPut, a1, Outcome.bind_ok, b1], by omega⟩

theorem picPixel_any {ch : UInt8} {at_ : Nat} {m : Buf} {s : Ctx} (hs : s.Sound) (hm : at_ + 4 ≤ m.size) : Goes m.size s.left (picPixel ch at_ m s) := by
  rw [picPixel]
  rcases picRead_any (ch := ch) [0, 1, 2, 3] hs with h | ⟨vals, s', a1, a2, a3, a4⟩
  · rw [h]; exact .inl ⟨_, rfl⟩
  · obtain ⟨m', b1, b2⟩ := picPut_any vals a2 hm
    rw [a1]
    simp only
    rw [b1, Outcome.bind_ok]
    exact .inr ⟨_, rfl, b2, a3, a4⟩

theorem picRepeat_any {ch : UInt8} {at_ count : Nat} {m : Buf} {s : Ctx} (hs : s.Sound) (hm : at_ + 4 * count ≤ m.size) : Goes m.size s.left (picRepeat ch at_ count m s) := by
  rw [picRepeat]
  rcases picRead_any (ch := ch) [0, 1, 2, 3] hs with h | ⟨vals, s', a1, a2, a3, a4⟩
  · rw [h]; exact .inl ⟨_, rfl⟩
  · rw [a1]
    simp only
    obtain ⟨m', c0, c1⟩ := loop_inv (f := fun i m => picPut (at_ + 4 * i) vals m) (n := count) (s := m) (P := fun (_ : Nat) (m' : Buf) => m'.size = m.size) rfl (by
      rintro t ht m1 h1
      obtain ⟨m2, b1, b2⟩ := picPut_any (at_ := at_ + 4 * t) vals (m := m1) a2 (by omega)
      exact ⟨m2, b1, by omega⟩)
    rw [c0, Outcome.bind_ok]
    exact .inr ⟨_, rfl, c1, a3, a4⟩

theorem Goes.weak {z a b : Nat} {o : Outcome (Buf × Ctx)} (h : Goes z a o) (hab : a ≤ b) : Goes z b o := by
  rcases h with h | ⟨q, h1, h2, h3, h4⟩
  · exact .inl h
  · exact .inr ⟨q, h1, h2, h3, by omega⟩

theorem picPure_any {ch : UInt8} : ∀ {rounds at_ left : Nat} {m : Buf} {s : Ctx}, s.Sound → at_ + 4 * left ≤ m.size → s.left < rounds →
    Goes m.size s.left (picPure ch rounds at_ left m s)
  | 0, _, _, _, _, _, _, hr => absurd hr (by omega)
  | k + 1, at_, left, m, s, hs, hm, hr => by
    rw [picPure]
    by_cases h0 : left = 0
    · rw [if_pos h0]; exact .inr ⟨_, rfl, rfl, hs, Nat.le_refl _⟩
    rw [if_neg h0]
    obtain ⟨g1, g2, g3⟩ := get_left hs
    cases he : s.get.2.atEof with
    | true => exact .inl ⟨_, rfl⟩
    | false =>
      have := g3 he
      rw [if_neg (by decide)]
      refine (picRepeat_any (at_ := at_) (count := min s.get.1.toNat left) (m := m) g1 (by omega)).bind fun q h1 h2 h3 => ?_
      rw [← h1]
      exact (picPure_any h2 (by omega) (by omega)).weak (by omega)

theorem picMixed_any {ch : UInt8} : ∀ {rounds at_ left : Nat} {m : Buf} {s : Ctx}, s.Sound → at_ + 4 * left ≤ m.size → s.left < rounds →
    Goes m.size s.left (picMixed ch rounds at_ left m s)
  | 0, _, _, _, _, _, _, hr => absurd hr (by omega)
  | k + 1, at_, left, m, s, hs, hm, hr => by
    rw [picMixed]
    by_cases h0 : left = 0
    · rw [if_pos h0]; exact .inr ⟨_, rfl, rfl, hs, Nat.le_refl _⟩
    rw [if_neg h0]
    obtain ⟨g1, g2, g3⟩ := get_left hs
    simp only
    cases he : s.get.2.atEof with
    | true => exact .inl ⟨_, rfl⟩
    | false =>
      have := g3 he
      rw [if_neg (by decide)]
      by_cases h1 : 128 ≤ s.get.1.toNat
      · rw [if_pos h1]
        have hs' : (if s.get.1.toNat = 128 then s.get.2.get.2.get.2 else s.get.2).Sound ∧ (if s.get.1.toNat = 128 then s.get.2.get.2.get.2 else s.get.2).left ≤ s.get.2.left := by
          split
          · obtain ⟨i1, i2, _⟩ := get_left g1
            obtain ⟨j1, j2, _⟩ := get_left i1
            exact ⟨j1, by omega⟩
          · exact ⟨g1, Nat.le_refl _⟩
        generalize (if s.get.1.toNat = 128 then s.get.2.get.2.get.2 else s.get.2) = s' at hs' ⊢
        generalize (if s.get.1.toNat = 128 then s.get.2.get.1.toNat * 256 + s.get.2.get.2.get.1.toNat else s.get.1.toNat - 127) = count
        by_cases h2 : left < count
        · rw [if_pos h2]; exact .inl ⟨_, rfl⟩
        rw [if_neg h2]
        refine (picRepeat_any (at_ := at_) (count := count) (m := m) hs'.1 (by omega)).bind fun q h1 h2 h3 => ?_
        rw [← h1]
        exact (picMixed_any h2 (by omega) (by omega)).weak (by omega)
      · rw [if_neg h1]
        by_cases h2 : left < s.get.1.toNat + 1
        · rw [if_pos h2]; exact .inl ⟨_, rfl⟩
        rw [if_neg h2]
        refine (Goes.loop (z := m.size) (N := s.get.1.toNat + 1) (f := fun i q => picPixel ch (at_ + 4 * i) q.1 q.2) (fun i hi q h1 h2 => by
          rw [← h1]
          exact picPixel_any h2 (by omega)) (s.get.1.toNat + 1) 0 (m, s.get.2) (by omega) rfl g1).bind fun q h1 h2 h3 => ?_
        simp only at h3
        rw [← h1]
        exact (picMixed_any h2 (by omega) (by omega)).weak (by omega)

theorem picRow_any {ch kind : UInt8} {rounds at_ x : Nat} {m : Buf} {s : Ctx} (hs : s.Sound) (hm : at_ + 4 * x ≤ m.size) (hr : s.left < rounds) :
    Goes m.size s.left (picRow rounds x kind ch at_ m s) := by
  rw [picRow]
  split
  · exact Goes.loop (z := m.size) (N := x) (f := fun i q => picPixel ch (at_ + 4 * i) q.1 q.2) (fun i hi q h1 h2 => by
      rw [← h1]
      exact picPixel_any h2 (by omega)) x 0 (m, s) (by omega) rfl hs
  split
  · exact picPure_any hs hm hr
  split
  · exact picMixed_any hs hm hr
  · exact .inl ⟨_, rfl⟩

theorem picRows_any {rounds at_ x : Nat} : ∀ (ps : List (UInt8 × UInt8)) {m : Buf} {s : Ctx}, s.Sound → at_ + 4 * x ≤ m.size → s.left < rounds →
    Goes m.size s.left (picRows rounds x at_ ps m s)
  | [], m, s, hs, _, _ => .inr ⟨_, rfl, rfl, hs, Nat.le_refl _⟩
  | (kind, ch) :: ps, m, s, hs, hm, hr => by
    rw [picRows]
    refine (picRow_any hs hm hr).bind fun q h1 h2 h3 => ?_
    rw [← h1]
    exact (picRows_any ps h2 (by omega) (by omega)).weak h3

theorem lines_any {rounds x : Nat} {ps : List (UInt8 × UInt8)} {z : Nat} : ∀ (n i : Nat) (q : Buf × Ctx), (i + n) * x * 4 ≤ z → q.1.size = z → q.2.Sound → q.2.left < rounds →
    Goes z q.2.left (loopFrom (fun j q => picRows rounds x (j * x * 4) ps q.1 q.2) n i q)
  | 0, _, q, _, h1, h2, _ => .inr ⟨q, rfl, h1, h2, Nat.le_refl _⟩
  | n + 1, i, q, hi, h1, h2, h3 => by
    rw [loopFrom]
    have e : i * x * 4 + 4 * x ≤ z := by
      have : (i + 1) * x ≤ (i + (n + 1)) * x := Nat.mul_le_mul_right _ (by omega)
      rw [Nat.add_mul, Nat.one_mul] at this
      omega
    have hg := picRows_any (rounds := rounds) (at_ := i * x * 4) (x := x) ps (m := q.1) h2 (by omega) h3
    rw [h1] at hg
    refine hg.bind fun q' g1 g2 g3 => ?_
    exact (lines_any n (i + 1) q' (by rw [show i + 1 + n = i + (n + 1) by omega]; exact hi) g1 g2 (by omega)).weak g3

/-- **C162** (what holds) Whatever the bytes behind its packets are, a PIC file that has alpha and for which there is memory is refused or gives a picture of the size that it says: reading ends, and nothing
outside of that memory is written. -/
theorem C162_any_partial (rounds room x y k : Nat) (ps : List (UInt8 × UInt8)) (file : List UInt8) (hf : IsPic file x y) (hps : PicPackets file 104 ps k) (hten : ps.length ≤ 10)
    (halpha : ∃ p ∈ ps, hasChan p.2 3 = true) (hsize : x * y * 4 < 2 ^ 31) (hroom : x * y * 4 ≤ room) (hr : file.length + 1 < rounds) :
    (∃ e, loadPic rounds room file = .throws e) ∨ ∃ i, loadPic rounds room file = .ok i ∧ i.x = x ∧ i.y = y ∧ i.n = 4 ∧ i.out.size = x * y * 4 := by
  obtain ⟨s, hs, hld⟩ := pic_of hf hps hten
  rw [hld rounds room hsize hroom]
  have hsound : s.Sound := ⟨hs.good.eof, fun h => by rw [hs.good.more] at h; cases h⟩
  have hleft : s.left ≤ file.length + 1 := by
    rw [Ctx.left]
    have := congrArg List.length hs.all
    rw [Ctx.all, List.length_append, List.length_drop] at this
    split <;> omega
  obtain ⟨p, hp, hpa⟩ := halpha
  have : picComp ps = 4 := by
    rw [picComp, if_pos (List.any_eq_true.2 ⟨p, hp, hpa⟩)]
  rw [this, loop]
  rcases lines_any (rounds := rounds) (x := x) (ps := ps) (z := x * y * 4) y 0 (⟨x * y * 4, fun _ => some 255⟩, s) (by rw [Nat.zero_add, Nat.mul_comm y]) rfl hsound (by
      simp only; omega) with ⟨e, h⟩ | ⟨q, h, h1, _, _⟩
  · rw [h]
    exact .inl ⟨e, by simp only [picEnd, if_pos]⟩
  · rw [h]
    exact .inr ⟨_, by simp only [picEnd, if_pos]; rfl, rfl, rfl, rfl, h1⟩

/-- a row that is cut off -/
example : (∃ e, loadPic 200 100 (picFile [0, 8, 2, 0xF0] [129, 7]) = .throws e) ∨
    ∃ i, loadPic 200 100 (picFile [0, 8, 2, 0xF0] [129, 7]) = .ok i ∧ i.x = 2 ∧ i.y = 1 ∧ i.n = 4 ∧ i.out.size = 2 * 1 * 4 :=
  C162_any_partial 200 100 2 1 108 [(2, 0xF0)] _ ⟨by decide, by decide, by decide, by decide, by decide⟩ (.last 104 (by decide) (by decide) (by decide)) (by decide)
    ⟨_, List.mem_cons_self, by decide⟩ (by decide) (by decide) (by decide)

end Verif.Png
