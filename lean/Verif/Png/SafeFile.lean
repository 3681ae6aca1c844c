import Verif.Png.SafeImage

/-! # Every file: from the gathered data to the picture -/

namespace Verif.Png

/-- the bytes of a sample -/
abbrev wide (d : Nat) : Nat := if d = 16 then 2 else 1

/-- the size of the scanlines as computed for memory at first, stb_image.h:4995-4996 -/
def St.guess (st : St) : Nat := (st.x * st.depth + 7) / 8 * st.y * st.n + st.y

/-- the channels that are decoded, stb_image.h:5000-5003, for `req_comp` 0 -/
def St.chan (st : St) : Nat := if st.trans then st.n + 1 else st.n

/-- a picture with all its bytes, those of the samples set unless there is a palette -/
structure Full (st : St) (i : Image) : Prop where
  x : i.x = st.x
  y : i.y = st.y
  depth : i.depth = st.depth
  n : (st.color = 3 ∧ i.n = st.palN ∧ st.depth ≠ 16) ∨ (st.color ≠ 3 ∧ i.n = st.chan)
  size : i.out.size = st.x * st.y * (i.n * wide st.depth)
  lt : st.x * st.y * i.n < 2 ^ 31
  set : st.color ≠ 3 → ∃ s : Nat → Nat, ∀ q < st.x * st.y * i.n, sampleAt i.out st.depth q = .ok (s q)

theorem St.guess_lt {st : St} (h : Good st) : 1 ≤ st.guess ∧ st.guess < 2 ^ 32 := by
  have hs := h.size
  have h1 : (st.x * st.depth + 7) / 8 ≤ 2 * st.x := by
    have hd := h.depth
    have : st.x * st.depth ≤ st.x * 16 := Nat.mul_le_mul_left _ (by omega)
    omega
  have h2 : (st.x * st.depth + 7) / 8 * st.y * st.n ≤ 2 * st.x * st.y * st.n := Nat.mul_le_mul_right _ (Nat.mul_le_mul_right _ h1)
  have h3 : 2 * st.x * st.y * st.n = 2 * (st.x * st.y * st.n) := by ring
  have := h.area
  rw [St.guess]
  omega

theorem last_top {W outN n d color : Nat} {px : Nat → Nat → Nat → Nat} (h : outN = n + 1) (i : Nat) :
    flat W outN (fun Y X c => if c < n then shown color d (px Y X c) else top d) (i * outN + (outN - 1)) = top d := by
  have h1 : (i * outN + (outN - 1)) % outN = n := by
    rw [Nat.mul_comm, Nat.mul_add_mod, Nat.mod_eq_of_lt (by omega)]; omega
  rw [flat]
  simp only [h1, Nat.lt_irrefl, if_false]

/-- the picture from the scanlines -/
theorem picture_out {room : Nat} {st : St} (h : Good st) {m : Buf} {px : Nat → Nat → Nat → Nat} (hsize : m.size = st.x * st.y * (st.chan * wide st.depth))
    (hlt : st.x * st.y * (st.chan * wide st.depth) < 2 ^ 31)
    (hm : ∀ Y < st.y, ∀ X < st.x, ∀ c < st.chan, sampleAt m st.depth ((Y * st.x + X) * st.chan + c) =
      .ok (if c < st.n then shown st.color st.depth (px Y X c) else top st.depth)) :
    ∃ o : Outcome Image, ((if st.trans then
              if st.depth = 16 then transparency16 st.tc16 (st.x * st.y) st.chan m else transparency st.tc (st.x * st.y) st.chan m
             else .ok m) >>= fun m =>
              if st.palN ≠ 0 then
                expandPalette room st.pal (st.x * st.y) st.palN m >>= fun m => .ok ⟨st.x, st.y, st.palN, st.depth, m⟩
              else .ok ⟨st.x, st.y, st.chan, st.depth, m⟩) = o ∧ ((∃ i, o = .ok i ∧ Full st i) ∨ ∃ e, o = .throws e) := by
  refine ⟨_, rfl, ?_⟩
  have hall := flat_all hm
  by_cases h3 : st.color = 3
  · obtain ⟨hp, h16, ht⟩ := h.pal h3
    have hn : st.n = 1 := by have := h.color; omega
    have hc : st.chan = 1 := by rw [St.chan, ht]; simpa using hn
    rw [ht, if_neg (by decide), Outcome.bind_ok, if_pos (by omega)]
    by_cases hr : 2 ^ 31 ≤ st.x * st.y * st.palN ∨ room < st.x * st.y * st.palN
    · rw [expandPalette, if_pos hr]; exact .inr ⟨_, rfl⟩
    · rw [hc, Nat.mul_one] at hall
      obtain ⟨m', e1, e2, _⟩ := expandPalette_ok (room := room) (count := st.x * st.y) (palN := st.palN) (pal := st.pal) (m := m)
        (s := fun q => UInt8.ofNat (flat st.x 1 (fun Y X c => if c < st.n then shown st.color st.depth (px Y X c) else top st.depth) q))
        (by omega) (by omega) (by
          intro q hq
          obtain ⟨b, b1, b2⟩ := sample8 h16 (hall q hq)
          rw [b1, ← b2]
          simp)
      rw [e1, Outcome.bind_ok]
      exact .inl ⟨_, rfl, rfl, rfl, rfl, .inl ⟨h3, rfl, h16⟩, by rw [e2, wide, if_neg h16, Nat.mul_one], by show st.x * st.y * st.palN < 2 ^ 31; omega, fun h => absurd h3 h⟩
  · have hp := h.noPal h3
    have hlt' : st.x * st.y * st.chan < 2 ^ 31 := by
      refine Nat.lt_of_le_of_lt (Nat.mul_le_mul_left _ ?_) hlt
      rw [wide]
      split <;> omega
    have hp' : ¬ st.palN ≠ 0 := by omega
    simp only [if_neg hp']
    cases ht : st.trans with
    | false =>
      rw [if_neg (by decide), Outcome.bind_ok]
      exact .inl ⟨_, rfl, rfl, rfl, rfl, .inr ⟨h3, rfl⟩, hsize, hlt', fun _ => ⟨_, hall⟩⟩
    | true =>
      obtain ⟨t1, t2, t3⟩ := h.trans ht
      have hc : st.chan = st.n + 1 := by rw [St.chan, ht]; rfl
      have hn : st.chan = 2 ∨ st.chan = 4 := by have := h.color; omega
      rw [if_pos rfl]
      by_cases h16 : st.depth = 16
      · rw [if_pos h16]
        rw [h16] at hall hsize
        obtain ⟨m', e1, e2, e3⟩ := transparency16_ok (tc := st.tc16) hn (by rw [t2 h16]; omega) (by rw [hsize]; rfl) hall (fun i _ => by rw [last_top hc]; rfl)
        rw [e1, Outcome.bind_ok]
        exact .inl ⟨_, rfl, rfl, rfl, rfl, .inr ⟨h3, rfl⟩, by rw [h16]; exact e2.trans hsize, hlt', fun _ => ⟨_, by rw [h16]; exact e3⟩⟩
      · rw [if_neg h16]
        have htop : top st.depth = 255 := by rw [top, if_neg h16]
        obtain ⟨m', e1, e2, e3⟩ := transparency_ok (tc := st.tc) h16 hn (by rw [t3 h16]; omega) (by rw [hsize, wide, if_neg h16, Nat.mul_one]) hall
          (fun i _ => by rw [last_top hc, htop])
        rw [e1, Outcome.bind_ok]
        exact .inl ⟨_, rfl, rfl, rfl, rfl, .inr ⟨h3, rfl⟩, e2.trans hsize, hlt', fun _ => ⟨_, e3⟩⟩

/-- the steps behind the chunks -/
theorem finish_eq (rounds room : Nat) {st : St} {z : List UInt8} (hf : st.first = false) (hz : st.idata = some z) (hg : st.guess < 2 ^ 32) :
    finish rounds room st = if 2 ^ 31 ≤ st.guess then .throws "" else
      Inflate.decodeMalloc rounds room (!st.iphone) st.guess z >>= fun raw =>
        createImage room raw st.n st.chan st.x st.y st.depth st.color st.interlace >>= fun m =>
          (if st.trans then
            if st.depth = 16 then transparency16 st.tc16 (st.x * st.y) st.chan m else transparency st.tc (st.x * st.y) st.chan m
           else .ok m) >>= fun m =>
            if st.palN ≠ 0 then
              expandPalette room st.pal (st.x * st.y) st.palN m >>= fun m => .ok ⟨st.x, st.y, st.palN, st.depth, m⟩
            else .ok ⟨st.x, st.y, st.chan, st.depth, m⟩ := by
  rw [finish, if_neg (by rw [hf]; decide), hz]
  simp only
  rw [show ((st.x * st.depth + 7) / 8 * st.y * st.n + st.y) % 2 ^ 32 = st.guess from Nat.mod_eq_of_lt hg]
  rfl

/-- everything that can come of the data gathered -/
theorem finish_out (rounds room : Nat) {st : St} (h : Inv st) :
    (∃ i, finish rounds room st = .ok i ∧ Full st i) ∨ (∃ e, finish rounds room st = .throws e) ∨
      (Good st ∧ st.guess < 2 ^ 31 ∧ ∃ z, st.idata = some z ∧
        ((finish rounds room st = .diverges ∧ Inflate.decodeMalloc rounds room (!st.iphone) st.guess z = .diverges) ∨
         (finish rounds room st = .ub ∧ Inflate.decodeMalloc rounds room (!st.iphone) st.guess z = .ub) ∨
         ∃ raw, Inflate.decodeMalloc rounds room (!st.iphone) st.guess z = .ok raw ∧
          ((finish rounds room st = .ub ∧ st.interlace = true ∧
              (2 ^ 31 ≤ st.x * st.y * (st.chan * wide st.depth) ∨ room < st.x * st.y * (st.chan * wide st.depth))) ∨
           (finish rounds room st = .assertFail ∧ st.depth = 4 ∧ (st.color = 2 ∨ st.color = 6))))) := by
  cases hf : st.first with
  | true => rw [finish, if_pos hf]; exact .inr (.inl ⟨_, rfl⟩)
  | false =>
    have hg := h.old hf
    cases hz : st.idata with
    | none =>
      refine .inr (.inl ⟨"no IDAT", ?_⟩)
      rw [finish, if_neg (by rw [hf]; decide), hz]
    | some z =>
      have hgl := St.guess_lt hg
      rw [finish_eq rounds room hf hz hgl.2]
      by_cases hbig : 2 ^ 31 ≤ st.guess
      · rw [if_pos hbig]; exact .inr (.inl ⟨_, rfl⟩)
      rw [if_neg hbig]
      have hsz := hg.size
      have hn : 1 ≤ st.n ∧ st.n ≤ 4 := by have := hg.color; omega
      have hout : st.chan = st.n ∨ (st.chan = st.n + 1 ∧ st.n % 2 = 1) := by
        rw [St.chan]
        cases ht : st.trans with
        | false => exact .inl rfl
        | true => exact .inr ⟨rfl, (hg.trans ht).1⟩
      rcases Inflate.C143_malloc rounds room (!st.iphone) st.guess hgl.1 (by omega) z with ⟨raw, hd, _⟩ | ⟨e, hd⟩ | hd | ⟨hd, _⟩
      · rw [hd, Outcome.bind_ok]
        rcases createImage_out (room := room) (raw := raw) st.color st.interlace hn hsz.1 hsz.2.2.1 hsz.2.1 hsz.2.2.2 hg.depth hout with
          ⟨px, s1, s2, s3⟩ | ⟨e, hc⟩ | ⟨hc, h4, h3⟩ | ⟨hc, hi, hb⟩
        · obtain ⟨m, m1, m2, m3⟩ := createImage_ok (room := room) st.color s1 hsz.2.1 hsz.2.2.1 hsz.2.2.2 s2 s3
          rw [m1, Outcome.bind_ok]
          obtain ⟨o, o1, o2⟩ := picture_out (room := room) hg m2 s1.hsz m3
          rw [o1]
          rcases o2 with h | h
          · exact .inl h
          · exact .inr (.inl h)
        · rw [hc]; exact .inr (.inl ⟨e, rfl⟩)
        · rw [hc]
          refine .inr (.inr ⟨hg, by omega, z, rfl, .inr (.inr ⟨raw, hd, .inr ⟨rfl, h4, ?_⟩⟩)⟩)
          have := hg.color
          omega
        · rw [hc]
          exact .inr (.inr ⟨hg, by omega, z, rfl, .inr (.inr ⟨raw, hd, .inl ⟨rfl, hi, hb⟩⟩)⟩)
      · rw [hd]; exact .inr (.inl ⟨e, rfl⟩)
      · rw [hd]; exact .inr (.inr ⟨hg, by omega, z, rfl, .inl ⟨rfl, hd⟩⟩)
      · rw [hd]; exact .inr (.inr ⟨hg, by omega, z, rfl, .inr (.inl ⟨rfl, hd⟩)⟩)

end Verif.Png
