import Verif.Png.Safe

/-! # Every picture -/

namespace Verif.Png

/-- the rows of red, green and blue of 4 bits -/
theorem createRaw_bad {room n outN x y : Nat} {raw : List UInt8} (color : Nat) (hn : n = 3 ∨ n = 4) (hx : 0 < x) (hy : 0 < y)
    (hout : outN = n ∨ outN = n + 1) :
    (∃ e, createRaw room raw n outN x y 4 color = .throws e) ∨ createRaw room raw n outN x y 4 color = .assertFail := by
  simp only [createRaw]
  rw [if_neg (by omega), mallocMad3]
  by_cases hm : x * y * (outN * (if 4 = 16 then 2 else 1)) < 2 ^ 31 ∧ x * y * (outN * (if 4 = 16 then 2 else 1)) ≤ room
  · rw [if_pos hm]
    simp only
    by_cases hb : 2 ^ 31 ≤ n * x * 4 + 7
    · rw [if_pos hb]; exact .inl ⟨_, rfl⟩
    rw [if_neg hb]
    by_cases hl : raw.length < (widthBytes n x 4 + 1) * y % 2 ^ 32
    · rw [if_pos hl]; exact .inl ⟨_, rfl⟩
    rw [if_neg hl]
    have hwb : x < widthBytes n x 4 ∧ widthBytes n x 4 ≤ 2 * x := by
      rw [widthBytes_eq, lineBytes]
      rcases hn with rfl | rfl <;> omega
    have hxy : 0 < x * y := Nat.mul_pos hx hy
    have hsmall : (widthBytes n x 4 + 1) * y < 2 ^ 32 := by
      have h1 : (widthBytes n x 4 + 1) * y ≤ 3 * x * y := Nat.mul_le_mul_right _ (by omega)
      have h2 : 3 * x * y = x * y * 3 := by ring
      have h3 : x * y * 3 ≤ x * y * (outN * (if 4 = 16 then 2 else 1)) := Nat.mul_le_mul_left _ (by simp; omega)
      omega
    rw [Nat.mod_eq_of_lt hsmall] at hl
    have hne : 0 < raw.length := by
      have : 0 < (widthBytes n x 4 + 1) * y := Nat.mul_pos (by omega) hy
      omega
    obtain ⟨y', rfl⟩ : ∃ y', y = y' + 1 := ⟨y - 1, by omega⟩
    rw [loop, loopFrom, row]
    simp only
    rw [get_ok (List.getElem?_eq_getElem hne), Outcome.bind_ok]
    by_cases hf : 4 < raw[0].toNat
    · rw [if_pos hf]; exact .inl ⟨_, rfl⟩
    · rw [if_neg hf, if_pos ⟨by decide, hwb.1⟩]; exact .inr rfl
  · rw [if_neg hm]; exact .inl ⟨_, rfl⟩

/-- what comes of rows, whatever is in them -/
theorem createRaw_out {room n outN x y d : Nat} {raw : List UInt8} (color : Nat) (hn : 1 ≤ n ∧ n ≤ 4) (hx : 0 < x) (hx2 : x ≤ 2 ^ 24) (hy : 0 < y)
    (hd : d = 1 ∨ d = 2 ∨ d = 4 ∨ d = 8 ∨ d = 16) (hout : outN = n ∨ (outN = n + 1 ∧ n % 2 = 1)) :
    (∃ px, Sizes n outN x y d ∧ x * y * (outN * (if d = 16 then 2 else 1)) ≤ room ∧ Scans n d x y px raw) ∨
      (∃ e, createRaw room raw n outN x y d color = .throws e) ∨ (createRaw room raw n outN x y d color = .assertFail ∧ d = 4 ∧ 3 ≤ n) := by
  by_cases hbad : d = 4 ∧ 3 ≤ n
  · obtain ⟨rfl, h3⟩ := hbad
    rcases createRaw_bad (room := room) (raw := raw) color (by omega) hx hy (by omega : outN = n ∨ outN = n + 1) with h | h
    · exact .inr (.inl h)
    · exact .inr (.inr ⟨h, rfl, h3⟩)
  by_cases hm : x * y * (outN * (if d = 16 then 2 else 1)) < 2 ^ 31 ∧ x * y * (outN * (if d = 16 then 2 else 1)) ≤ room
  · have hS : Sizes n outN x y d := by
      refine ⟨by omega, hx, hd, by omega, fun h => ?_, fun _ _ => by omega, hm.1, ?_⟩
      · rcases hd with rfl | rfl | rfl | rfl | rfl <;> omega
      · have : n * x * d ≤ 4 * 2 ^ 24 * 16 := Nat.mul_le_mul (Nat.mul_le_mul hn.2 hx2) (by omega)
        omega
    by_cases hs : ∃ px, Scans n d x y px raw
    · obtain ⟨px, hp⟩ := hs
      exact .inl ⟨px, hS, hm.2, hp⟩
    · exact .inr (.inl (createRaw_refuses color hS hm.2 hs))
  · refine .inr (.inl ⟨"outofmem", ?_⟩)
    simp only [createRaw]
    rw [if_neg (by omega), mallocMad3, if_neg hm]

/-- what comes of a picture, whatever is in it -/
theorem createImage_out {room n outN W H d : Nat} {raw : List UInt8} (color : Nat) (i : Bool) (hn : 1 ≤ n ∧ n ≤ 4) (hW : 0 < W) (hW2 : W ≤ 2 ^ 24) (hH : 0 < H)
    (hH2 : H ≤ 2 ^ 24) (hd : d = 1 ∨ d = 2 ∨ d = 4 ∨ d = 8 ∨ d = 16) (hout : outN = n ∨ (outN = n + 1 ∧ n % 2 = 1)) :
    (∃ px, Sizes n outN W H d ∧ W * H * (outN * (if d = 16 then 2 else 1)) ≤ room ∧ Pixels i n d W H px raw) ∨
      (∃ e, createImage room raw n outN W H d color i = .throws e) ∨ (createImage room raw n outN W H d color i = .assertFail ∧ d = 4 ∧ 3 ≤ n) ∨
      (createImage room raw n outN W H d color i = .ub ∧ i = true ∧
        (2 ^ 31 ≤ W * H * (outN * (if d = 16 then 2 else 1)) ∨ room < W * H * (outN * (if d = 16 then 2 else 1)))) := by
  cases i with
  | false =>
    have hc : createImage room raw n outN W H d color false = createRaw room raw n outN W H d color := by rw [createImage, if_pos rfl]
    rw [hc]
    rcases createRaw_out (room := room) (raw := raw) color hn hW hW2 hH hd hout with ⟨px, h1, h2, h3⟩ | h | h
    · exact .inl ⟨px, h1, h2, by simpa [Pixels] using h3⟩
    · exact .inr (.inl h)
    · exact .inr (.inr (.inl h))
  | true =>
    -- the first pass
    have ht : PassIs 1 (0, 0, 8, 8) := by
      have := passes_are
      rw [adam7] at this
      simp only [List.forall₂_cons] at this
      exact this.1
    have cl : (columns 1 W).length = passSize W 0 8 := by rw [columns_eq ht hW hW2]; simp
    have ll : (lines 1 H).length = passSize H 0 8 := by rw [lines_eq ht hH hH2]; simp
    have px0 : 0 < passSize W 0 8 := by rw [passSize_eq hW hW2 (by decide) (by decide)]; omega
    have py0 : 0 < passSize H 0 8 := by rw [passSize_eq hH hH2 (by decide) (by decide)]; omega
    have px1 : passSize W 0 8 ≤ W := by rw [passSize_eq hW hW2 (by decide) (by decide)]; omega
    have first : ∀ o : Outcome Buf, createRaw room raw n outN (passSize W 0 8) (passSize H 0 8) d color = o → (∀ m, o ≠ .ok m) →
        createImage room raw n outN W H d color true = o := by
      intro o ho hno
      simp only [createImage]
      rw [if_neg (by decide), adam7, passes, pass]
      simp only
      rw [if_pos ⟨by omega, by omega⟩, ho]
      cases o with
      | ok m => exact absurd rfl (hno m)
      | _ => rfl
    rcases createRaw_out (room := room) (raw := raw) color hn px0 (by omega : passSize W 0 8 ≤ 2 ^ 24) py0 hd hout with ⟨px, h1, h2, h3⟩ | ⟨e, h⟩ | ⟨h, h'⟩
    · by_cases hm : W * H * (outN * (if d = 16 then 2 else 1)) < 2 ^ 31 ∧ W * H * (outN * (if d = 16 then 2 else 1)) ≤ room
      · have hS : Sizes n outN W H d := by
          refine ⟨by omega, hW, hd, by omega, h1.hnd, h1.hal, hm.1, ?_⟩
          have : n * W * d ≤ 4 * 2 ^ 24 * 16 := Nat.mul_le_mul (Nat.mul_le_mul hn.2 hW2) (by omega)
          omega
        by_cases hs : ∃ px, Pixels true n d W H px raw
        · obtain ⟨px, hp⟩ := hs
          exact .inl ⟨px, hS, hm.2, hp⟩
        · exact .inr (.inl (createImage_refuses color hS hH hW2 hH2 hm.2 hs))
      · have hbig : 2 ^ 31 ≤ W * H * (outN * (if d = 16 then 2 else 1)) ∨ room < W * H * (outN * (if d = 16 then 2 else 1)) := by omega
        exact .inr (.inr (.inr ⟨C145_null_fails room n outN W H d color raw px hW hH hW2 hH2 (by rw [cl, ll]; exact h1) (by rw [cl, ll]; exact h2)
          (by rw [cl, ll]; exact h3) hbig, rfl, hbig⟩))
    · exact .inr (.inl ⟨e, first _ h (fun m hm => by cases hm)⟩)
    · exact .inr (.inr (.inl ⟨first _ h (fun m hm => by cases hm), h'⟩))

end Verif.Png
