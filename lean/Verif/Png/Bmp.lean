import Verif.Png.BmpModel
import Verif.Png.Reader
import Verif.Png.Mem
import Mathlib.Tactic.SplitIfs
import Mathlib.Tactic.Ring

/-! # The header of a BMP file -/

namespace Verif.Png

/-- the byte at a place of a file, 0 behind its end -/
def byteAt (file : List UInt8) (k : Nat) : UInt8 := file.getD k 0

/-- the number of two bytes at a place of a file, the lower one first -/
def le16 (file : List UInt8) (k : Nat) : Nat := (byteAt file k).toNat + 256 * (byteAt file (k + 1)).toNat

/-- the number of four bytes at a place of a file, the lowest one first -/
def le32 (file : List UInt8) (k : Nat) : Nat := le16 file k + 65536 * le16 file (k + 2)

/-- `k` bytes of the file have been read -/
structure Rd.At (file : List UInt8) (k : Nat) (r : Rd) : Prop where
  all : r.src.all = file.drop k
  le : r.pos + r.src.buf.length ≤ 128
  eq : r.pos + r.src.buf.length = 128 ∨ r.src.rest = []
  zero : k = 0 → r.pos = 0
  pos : 0 < k → r.pos = (k - 1) % 128 + 1

theorem start_at {file : List UInt8} : Rd.At file 0 ⟨start file, 0⟩ := by
  refine ⟨by rw [start_all]; rfl, ?_, ?_, fun _ => rfl, fun h => absurd h (by omega)⟩
  · simp only [start, List.length_take]; omega
  · simp only [start, List.length_take]
    by_cases h : 128 ≤ file.length
    · left; omega
    · right; exact List.drop_eq_nil_of_le (by omega)

theorem rd8_at {file : List UInt8} {k : Nat} {r : Rd} (h : r.At file k) (hk : k < file.length) :
    (rd8 r).1 = byteAt file k ∧ (rd8 r).2.At file (k + 1) := by
  have hd : file.drop k = file[k] :: file.drop (k + 1) := List.drop_eq_getElem_cons hk
  have hg := get8_all (h.all.trans hd)
  have hb : byteAt file k = file[k] := by rw [byteAt, List.getD_eq_getElem?_getD, List.getElem?_eq_getElem hk]; rfl
  refine ⟨by rw [rd8, hb]; exact hg.1, ?_⟩
  have hpos : r.pos = if k = 0 then 0 else (k - 1) % 128 + 1 := by
    split
    · rename_i h0; exact h.zero h0
    · exact h.pos (by omega)
  have hle := h.le
  have heq := h.eq
  have hall := h.all
  obtain ⟨⟨buf, rest⟩, pos⟩ := r
  cases buf with
  | cons b bs =>
    simp only [List.length_cons] at hle heq hpos
    simp only [Src.all, hd, List.cons_append, List.cons.injEq] at hall
    refine ⟨by simp only [rd8, get8, Src.all]; exact hall.2, ?_, ?_, fun h => absurd h (by omega), fun _ => ?_⟩
    · simp only [rd8, get8, List.isEmpty_cons, Bool.false_eq_true, if_false]; omega
    · simp only [rd8, get8, List.isEmpty_cons, Bool.false_eq_true, if_false]
      exact heq.imp (fun h => by omega) id
    · simp only [rd8, get8, List.isEmpty_cons, Bool.false_eq_true, if_false]
      split at hpos <;> omega
  | nil =>
    simp only [List.length_nil, Nat.add_zero] at hle heq hpos
    simp only [Src.all, hd, List.nil_append] at hall
    have hp : pos = 128 := by
      rcases heq with h | h
      · exact h
      · rw [h] at hall; cases hall
    subst hall
    refine ⟨?_, ?_, ?_, fun h => absurd h (by omega), fun _ => ?_⟩
    · exact hg.2
    · simp only [rd8, get8, List.take_succ_cons, List.isEmpty_nil, if_true, List.length_take]; omega
    · simp only [rd8, get8, List.take_succ_cons, List.drop_succ_cons, List.isEmpty_nil, if_true, List.length_take, List.length_drop]
      by_cases h' : 127 ≤ file.length - (k + 1)
      · left; omega
      · right; exact List.drop_eq_nil_of_le (by rw [List.length_drop]; omega)
    · simp only [rd8, List.isEmpty_nil, if_true]
      split at hpos <;> omega

theorem rd16_at {file : List UInt8} {k : Nat} {r : Rd} (h : r.At file k) (hk : k + 2 ≤ file.length) :
    (rd16 r).1 = le16 file k ∧ (rd16 r).2.At file (k + 2) := by
  have h1 := rd8_at h (by omega)
  have h2 := rd8_at h1.2 (by omega)
  simp only [rd16]
  exact ⟨by rw [h1.1, h2.1, le16]; ring, h2.2⟩

theorem rd32_at {file : List UInt8} {k : Nat} {r : Rd} (h : r.At file k) (hk : k + 4 ≤ file.length) :
    (rd32 r).1 = le32 file k ∧ (rd32 r).2.At file (k + 4) := by
  have h1 := rd16_at h (by omega)
  have h2 := rd16_at h1.2 (by omega)
  simp only [rd32]
  exact ⟨by rw [h1.1, h2.1, le32]; ring, h2.2⟩

theorem rdSkip_at {file : List UInt8} : ∀ (n k : Nat) (r : Rd), r.At file k → k + n ≤ file.length → (rdSkip n r).At file (k + n)
  | 0, _, _, h, _ => h
  | n + 1, k, r, h, hk => by
    rw [rdSkip, show k + (n + 1) = k + 1 + n by omega]
    exact rdSkip_at n (k + 1) _ (rd8_at h (by omega)).2 (by omega)

/-- what a BMP file begins with -/
structure Starts (file : List UInt8) (hsz : Nat) : Prop where
  b : byteAt file 0 = 66
  m : byteAt file 1 = 77
  size : le32 file 14 = hsz
  long : 14 + hsz ≤ file.length
  planes : le16 file (if hsz = 12 then 22 else 26) = 1

/-- the header up to the compression -/
theorem header_at {file : List UInt8} {hsz : Nat} (h : Starts file hsz) (hs : hsz = 40 ∨ hsz = 56 ∨ hsz = 108 ∨ hsz = 124)
    (hc : le32 file 30 ≠ 1 ∧ le32 file 30 ≠ 2) : ∃ r, r.At file 54 ∧ bmpHeader ⟨start file, 0⟩ =
      (if hsz = 40 ∨ hsz = 56 then
        bmpMasks { bpp := le16 file 28, offset := le32 file 10, hsz := hsz, x := le32 file 18, y := le32 file 22 } (le32 file 30) r
       else bmpLong { bpp := le16 file 28, offset := le32 file 10, hsz := hsz, x := le32 file 18, y := le32 file 22 } r) := by
  have hlen := h.long
  have h1 := rd8_at (start_at (file := file)) (by omega)
  have h2 := rd8_at h1.2 (by omega)
  have h3 := rdSkip_at 8 _ _ h2.2 (by omega)
  have h4 := rd32_at h3 (by omega)
  have h5 := rd32_at h4.2 (by omega)
  have h6 := rd32_at h5.2 (by omega)
  have h7 := rd32_at h6.2 (by omega)
  have h8 := rd16_at h7.2 (by omega)
  have h9 := rd16_at h8.2 (by omega)
  have h10 := rd32_at h9.2 (by omega)
  have h11 := rdSkip_at 20 _ _ h10.2 (by omega)
  refine ⟨_, h11, ?_⟩
  have hp := h.planes
  rw [if_neg (by omega)] at hp
  have e5 : (rd32 (rd32 (rdSkip 8 (rd8 (rd8 ⟨start file, 0⟩).2).2)).2).1 = hsz := by rw [h5.1]; exact h.size
  rw [bmpHeader]
  simp only [h1.1, h.b, ne_eq, not_true_eq_false, if_false, h2.1, h.m, e5, if_neg (show ¬ hsz = 12 by omega)]
  rw [if_neg (by omega)]
  simp only [h8.1, Nat.reduceAdd, hp, not_true_eq_false, if_false, h10.1]
  rw [if_pos (by omega), if_neg (by omega)]
  simp only [h4.1, h6.1, h7.1, h9.1, Nat.reduceAdd]

theorem masks_none {file : List UInt8} {info : Bmp} {c : Nat} {r : Rd} (hr : r.At file 54) (hl : 14 + info.hsz ≤ file.length)
    (hs : info.hsz = 40 ∨ info.hsz = 56) (hb : info.bpp ≠ 16 ∧ info.bpp ≠ 32) :
    ∃ r', bmpMasks info c r = .ok (info, r') ∧ r'.At file (14 + info.hsz) := by
  rw [bmpMasks]
  refine ⟨_, by simp only; rw [if_neg (by omega)], ?_⟩
  rcases hs with hs | hs
  · rw [hs, if_neg (by omega)]; exact hr
  · rw [hs, if_pos rfl]; exact rdSkip_at 16 54 _ hr (by omega)

theorem masks_32 {file : List UInt8} {info : Bmp} {r : Rd} (hr : r.At file 54) (hl : 14 + info.hsz ≤ file.length)
    (hs : info.hsz = 40 ∨ info.hsz = 56) (hb : info.bpp = 32) :
    ∃ r', bmpMasks info 0 r = .ok ({ info with mr := 0xff0000, mg := 0xff00, mb := 0xff, ma := 0xff000000, allA := 0 }, r') ∧
      r'.At file (14 + info.hsz) := by
  rw [bmpMasks]
  refine ⟨_, by simp only [if_true]; rw [if_pos (by omega), if_pos hb], ?_⟩
  rcases hs with hs | hs
  · rw [hs, if_neg (by omega)]; exact hr
  · rw [hs, if_pos rfl]; exact rdSkip_at 16 54 _ hr (by omega)

theorem long_ok {file : List UInt8} {info : Bmp} {r : Rd} (hr : r.At file 54) (hl : 14 + info.hsz ≤ file.length)
    (hs : info.hsz = 108 ∨ info.hsz = 124) :
    ∃ r', bmpLong info r = .ok ({ info with mr := le32 file 54, mg := le32 file 58, mb := le32 file 62, ma := le32 file 66 }, r') ∧
      r'.At file (14 + info.hsz) := by
  have h1 := rd32_at hr (by omega)
  have h2 := rd32_at h1.2 (by omega)
  have h3 := rd32_at h2.2 (by omega)
  have h4 := rd32_at h3.2 (by omega)
  have h5 := rdSkip_at 52 _ _ h4.2 (by omega)
  rw [bmpLong]
  refine ⟨_, by simp only [h1.1, h2.1, h3.1, h4.1, Nat.reduceAdd]; rfl, ?_⟩
  rcases hs with hs | hs
  · rw [hs, if_neg (by omega)]; exact h5
  · rw [hs, if_pos rfl]; exact rdSkip_at 16 _ _ h5 (by omega)

end Verif.Png
