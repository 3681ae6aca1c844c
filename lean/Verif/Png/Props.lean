import Verif.Png.Inter

/-! # Properties of decoding the picture in a PNG file -/

namespace Verif.Png

/-! ## C144: scanlines -/

/-- **C144** (what holds) Whatever filters the scanlines of a picture are filtered by, the samples given back are those of the picture:
of 8 bits if they have at most 8, with grey spread over 0 to 255, and of 16 bits otherwise; with alpha added, if there is none and it
is asked for, that says that nothing shines through. -/
theorem C144_decodes (room n outN x y d color : Nat) (raw : List UInt8) (px : Nat → Nat → Nat → Nat) (h : Sizes n outN x y d)
    (hroom : x * y * (outN * (if d = 16 then 2 else 1)) ≤ room) (hs : Scans n d x y px raw) :
    ∃ m, createRaw room raw n outN x y d color = .ok m ∧ m.size = x * y * (outN * (if d = 16 then 2 else 1)) ∧
      ∀ j < y, ∀ i < x, ∀ c < outN, sampleAt m d ((j * x + i) * outN + c) =
        .ok (if c < n then shown color d (px j i c) else top d) := createRaw_scans color h hroom hs

example : Sizes 3 4 5 2 8 ∧ Sizes 1 1 9 3 2 ∧ Sizes 3 3 100 100 16 :=
  ⟨⟨by decide, by decide, by decide, by decide, by decide, by decide, by decide, by decide⟩,
   ⟨by decide, by decide, by decide, by decide, by decide, by decide, by decide, by decide⟩,
   ⟨by decide, by decide, by decide, by decide, by decide, by decide, by decide, by decide⟩⟩

/-- two rows of three grey pixels of 8 bits, filtered by the average and by Paeth -/
example : Scans 1 8 3 2 (fun j i _ => [[10, 20, 30], [40, 50, 60]][j]![i]!) [3, 10, 15, 20, 4, 30, 10, 10] := by
  refine ⟨fun j i => if j = 0 then [10, 20, 30].getD i 0 else [40, 50, 60].getD i 0, ?_, by decide⟩
  intro j hj
  match j, hj with
  | 0, _ => exact ⟨3, by decide, rfl, by decide⟩
  | 1, _ => exact ⟨4, by decide, rfl, by decide⟩

/-- **C144** (what holds) Exactly the data that are long enough and have at the beginning of each row one of the numbers 0 to 4 are
the scanlines of a picture. -/
theorem C144_scans_iff (n d x y : Nat) (hn : 0 < n) (hd : 0 < d) (raw : List UInt8) :
    (∃ px, Scans n d x y px raw) ↔
      ((n * x * d + 7) / 8 + 1) * y ≤ raw.length ∧ ∀ j < y, (raw.getD (j * ((n * x * d + 7) / 8 + 1)) 0).toNat ≤ 4 := scans_iff hn hd raw

example : (∃ px, Scans 1 8 3 2 px [3, 10, 15, 20, 4, 30, 10, 10]) ∧ ¬ ∃ px, Scans 1 8 3 2 px [3, 10, 15, 20, 5, 30, 10, 10] :=
  ⟨(C144_scans_iff 1 8 3 2 (by decide) (by decide) _).2 ⟨by decide, by decide⟩,
    fun h => absurd (((C144_scans_iff 1 8 3 2 (by decide) (by decide) _).1 h).2 1 (by decide)) (by decide)⟩

/-- **C144** (what holds) Exactly the scanlines of a picture are accepted; on other data an error is reported.  Neither undefined behaviour nor a
failed assertion comes of any data. -/
theorem C144_accepts_iff (room n outN x y d color : Nat) (raw : List UInt8) (h : Sizes n outN x y d)
    (hroom : x * y * (outN * (if d = 16 then 2 else 1)) ≤ room) :
    ((∃ m, createRaw room raw n outN x y d color = .ok m) ↔ ∃ px, Scans n d x y px raw) ∧
      ((¬ ∃ px, Scans n d x y px raw) → ∃ e, createRaw room raw n outN x y d color = .throws e) := by
  have hr := createRaw_refuses (raw := raw) color h hroom
  refine ⟨⟨fun ⟨m, hm⟩ => ?_, fun ⟨px, hp⟩ => ?_⟩, hr⟩
  · by_contra hc
    obtain ⟨e, he⟩ := hr hc
    rw [hm] at he
    cases he
  · obtain ⟨m, h1, _⟩ := createRaw_scans color h hroom hp
    exact ⟨m, h1⟩

example : ∃ e, createRaw 6 [3, 10, 15, 20, 5, 30, 10, 10] 1 1 3 2 8 0 = .throws e :=
  (C144_accepts_iff 6 1 1 3 2 8 0 _ ⟨by decide, by decide, by decide, by decide, by decide, by decide, by decide, by decide⟩ (by decide)).2 fun h =>
    absurd (((C144_scans_iff 1 8 3 2 (by decide) (by decide) _).1 h).2 1 (by decide)) (by decide)

theorem foldl_same (f g : Nat → Nat → Nat) : ∀ (l : List Nat), (∀ v, ∀ k ∈ l, f v k = g v k) → ∀ v, l.foldl f v = l.foldl g v
  | [], _, _ => rfl
  | a :: l, h, v => by
    rw [List.foldl_cons, List.foldl_cons, h v a (by simp)]
    exact foldl_same f g l (fun v k hk => h v k (by simp [hk])) _

/-- **C144** (what holds) Data are the scanlines of one picture only. -/
theorem C144_unique (n d x y : Nat) (hn : 0 < n) (hd : 0 < d) (raw : List UInt8) (px px' : Nat → Nat → Nat → Nat)
    (h : Scans n d x y px raw) (h' : Scans n d x y px' raw) : ∀ j < y, ∀ i < x, ∀ c < n, px j i c = px' j i c := by
  obtain ⟨pic, f, hp⟩ := h
  obtain ⟨pic', f', hp'⟩ := h'
  have hpb : 0 < pixelBytes n d := by
    have : 0 < n * d := Nat.mul_pos hn hd
    rw [pixelBytes]; omega
  -- the bytes of the rows are the same
  have key : ∀ j < y, ∀ t < lineBytes n x d, pic j t = pic' j t := by
    intro j
    induction j with
    | zero =>
      intro hj t
      induction t using Nat.strong_induction_on with
      | _ t ih =>
        intro ht
        obtain ⟨g, _, g2, g3⟩ := f 0 hj
        obtain ⟨g', _, g2', g3'⟩ := f' 0 hj
        rw [g2] at g2'
        cases g2'
        have e := (g3 t ht).symm.trans (g3' t ht)
        rw [above_zero rfl, above_zero rfl] at e
        have hb : before (pixelBytes n d) (above pic 0) t = before (pixelBytes n d) (above pic' 0) t := by
          simp only [before, above, if_pos]
        have hb' : before (pixelBytes n d) (pic 0) t = before (pixelBytes n d) (pic' 0) t := by
          simp only [before]
          split
          · rfl
          · rw [ih _ (by omega) (by omega)]
        rw [hb, hb'] at e
        have e := Option.some.inj e
        have := congrArg (· + UInt8.ofNat (predict g.toNat (before (pixelBytes n d) (pic' 0) t) (0 : UInt8).toNat
          (before (pixelBytes n d) (above pic' 0) t))) e
        simpa [UInt8.sub_add_cancel] using this
    | succ j ihj =>
      intro hj t
      induction t using Nat.strong_induction_on with
      | _ t ih =>
        intro ht
        obtain ⟨g, _, g2, g3⟩ := f (j + 1) hj
        obtain ⟨g', _, g2', g3'⟩ := f' (j + 1) hj
        rw [g2] at g2'
        cases g2'
        have e := (g3 t ht).symm.trans (g3' t ht)
        have hj' := ihj (by omega)
        have ha : above pic (j + 1) = pic j := rfl
        have ha' : above pic' (j + 1) = pic' j := rfl
        rw [ha, ha', hj' t ht] at e
        have hb : before (pixelBytes n d) (pic j) t = before (pixelBytes n d) (pic' j) t := by
          simp only [before]
          split
          · rfl
          · rw [hj' _ (by omega)]
        have hb' : before (pixelBytes n d) (pic (j + 1)) t = before (pixelBytes n d) (pic' (j + 1)) t := by
          simp only [before]
          split
          · rfl
          · rw [ih _ (by omega) (by omega)]
        rw [hb, hb'] at e
        have e := Option.some.inj e
        have := congrArg (· + UInt8.ofNat (predict g.toNat (before (pixelBytes n d) (pic' (j + 1)) t) (pic' j t).toNat
          (before (pixelBytes n d) (pic' j) t))) e
        simpa [UInt8.sub_add_cancel] using this
  intro j hj i hi c hc
  rw [← hp j hj i hi c hc, ← hp' j hj i hi c hc, sampleOf, sampleOf]
  refine foldl_same _ _ _ (fun v k hk => ?_) 0
  have hk := List.mem_range.mp hk
  rw [bitOf, bitOf, key j hj]
  rw [lineBytes]
  have h1 : (i * n + c + 1) * d ≤ n * x * d := by
    refine Nat.mul_le_mul_right _ ?_
    calc i * n + c + 1 ≤ i * n + n := by omega
      _ = (i + 1) * n := by ring
      _ ≤ x * n := Nat.mul_le_mul_right _ hi
      _ = n * x := by ring
  have h2 : (i * n + c + 1) * d = (i * n + c) * d + d := by ring
  omega

/-- **C144** (what does not hold) A header may say that there are colours of 4 bits, which the format does not allow; then an assertion
fails. -/
theorem C144_assert_fails : createRaw 1000 [0, 0, 0, 0] 3 3 2 1 4 2 = .assertFail := by rfl

/-- **C144** (what does not hold) Nor are grey and alpha of 4 bits allowed, but they are accepted, and the greatest grey does not
become 255: a white pixel is nearly black. -/
theorem C144_unscaled_fails : (createRaw 1000 [0, 0xff] 2 2 1 1 4 4 >>= fun m => sampleAt m 4 0) = .ok 15 := by decide +kernel

/-! ## C145: interlaced pictures -/

/-- **C145** (what holds) The passes of the format share out the pixels: each pixel is in one of them and no other. -/
theorem C145_once (W H X Y : Nat) (hX : X < W) (hY : Y < H) (p : Nat) (hp : p ∈ [1, 2, 3, 4, 5, 6, 7]) :
    (X ∈ columns p W ∧ Y ∈ lines p H) ↔ p = passOf X Y := by
  have key : ∀ p ∈ [1, 2, 3, 4, 5, 6, 7], ∀ X < 8, ∀ Y < 8,
      ((((List.range 8).any fun Y => passOf X Y == p) = true ∧ ((List.range 8).any fun X => passOf X Y == p) = true) ↔ p = passOf X Y) := by
    decide +kernel
  have := key p hp (X % 8) (Nat.mod_lt _ (by decide)) (Y % 8) (Nat.mod_lt _ (by decide))
  have e1 : ∀ Z, passOf (X % 8) Z = passOf X Z := fun Z => by simp [passOf]
  have e2 : ∀ Z, passOf Z (Y % 8) = passOf Z Y := fun Z => by simp [passOf]
  simp only [e1, e2] at this
  simp only [columns, lines, List.mem_filter, List.mem_range, hX, hY, true_and]
  exact this

example : passOf 4 2 = 5 ∧ passOf 2 4 = 4 ∧ 4 ∈ columns 5 7 ∧ 2 ∈ lines 5 3 := by decide

/-- **C145** (what holds) From the pictures of the seven passes the samples of the whole picture are given back, each at its place; an
empty pass has no data. -/
theorem C145_decodes (room n outN W H d color : Nat) (raw : List UInt8) (px : Nat → Nat → Nat → Nat) (h : Sizes n outN W H d) (hH : 0 < H)
    (hW2 : W ≤ 2 ^ 24) (hH2 : H ≤ 2 ^ 24) (hroom : W * H * (outN * (if d = 16 then 2 else 1)) ≤ room)
    (hp : Passes n d W H px [1, 2, 3, 4, 5, 6, 7] raw) :
    ∃ m, createImage room raw n outN W H d color true = .ok m ∧ m.size = W * H * (outN * (if d = 16 then 2 else 1)) ∧
      ∀ Y < H, ∀ X < W, ∀ c < outN, sampleAt m d ((Y * W + X) * outN + c) =
        .ok (if c < n then shown color d (px Y X c) else top d) :=
  createImage_ok (i := true) color h hH hW2 hH2 hroom hp

/-- **C145** (what holds) Interlaced or not, exactly the data of a picture are accepted, and an error is reported on others. -/
theorem C145_accepts_iff (room n outN W H d color : Nat) (raw : List UInt8) (i : Bool) (h : Sizes n outN W H d) (hH : 0 < H)
    (hW2 : W ≤ 2 ^ 24) (hH2 : H ≤ 2 ^ 24) (hroom : W * H * (outN * (if d = 16 then 2 else 1)) ≤ room) :
    ((∃ m, createImage room raw n outN W H d color i = .ok m) ↔ ∃ px, Pixels i n d W H px raw) ∧
      ((¬ ∃ px, Pixels i n d W H px raw) → ∃ e, createImage room raw n outN W H d color i = .throws e) := by
  have hr := createImage_refuses (raw := raw) (i := i) color h hH hW2 hH2 hroom
  refine ⟨⟨fun ⟨m, hm⟩ => ?_, fun ⟨px, hp⟩ => ?_⟩, hr⟩
  · by_contra hc
    obtain ⟨e, he⟩ := hr hc
    rw [hm] at he
    cases he
  · obtain ⟨m, h1, _⟩ := createImage_ok color h hH hW2 hH2 hroom hp
    exact ⟨m, h1⟩

set_option maxRecDepth 100000 in
/-- two rows of three grey pixels: four passes are not empty -/
example : (createImage 1000 [0, 10, 0, 30, 1, 20, 1, 40, 10, 10] 1 1 3 2 8 0 true >>= fun m =>
    (List.range 6).foldr (fun i o => load m i >>= fun v => o >>= fun vs => .ok (v :: vs)) (.ok [])) = .ok [10, 20, 30, 40, 50, 60] := by
  decide +kernel

/-- **C145** (what does not hold) That there is no memory for a picture is not noticed if it is interlaced: if the first pass is in the
data, bytes are written at a null pointer.  Of pictures of 2^31 bytes or more this comes however much memory there is. -/
theorem C145_null_fails (room n outN W H d color : Nat) (raw : List UInt8) (px : Nat → Nat → Nat → Nat) (hW : 0 < W) (hH : 0 < H)
    (hW2 : W ≤ 2 ^ 24) (hH2 : H ≤ 2 ^ 24) (h : Sizes n outN (columns 1 W).length (lines 1 H).length d)
    (hroom : (columns 1 W).length * (lines 1 H).length * (outN * (if d = 16 then 2 else 1)) ≤ room)
    (hs : Scans n d (columns 1 W).length (lines 1 H).length px raw)
    (hbig : 2 ^ 31 ≤ W * H * (outN * (if d = 16 then 2 else 1)) ∨ room < W * H * (outN * (if d = 16 then 2 else 1))) :
    createImage room raw n outN W H d color true = .ub := by
  have ht : PassIs 1 (0, 0, 8, 8) := by
    have := passes_are
    rw [adam7] at this
    simp only [List.forall₂_cons] at this
    exact this.1
  have cl : (columns 1 W).length = passSize W 0 8 := by rw [columns_eq ht hW hW2]; simp
  have ll : (lines 1 H).length = passSize H 0 8 := by rw [lines_eq ht hH hH2]; simp
  obtain ⟨out, o1, o2, _⟩ := createRaw_scans (room := room) color h hroom hs
  rw [cl, ll] at o1 o2 h
  have hpx : 0 < passSize W 0 8 := h.hx
  have hpy : 0 < passSize H 0 8 := by rw [passSize_eq hH hH2 (by decide) (by decide)]; omega
  have hob : 0 < outN * (if d = 16 then 2 else 1) :=
    Nat.mul_pos (by have := h.hout; have := h.hn; omega) (by split <;> omega)
  have hsz : 0 < out.size := by rw [o2]; exact Nat.mul_pos (Nat.mul_pos hpx hpy) hob
  have hcopy : copyTo out (fresh 0) 0 0 (outN * (if d = 16 then 2 else 1)) = .ub := by
    obtain ⟨k, hk⟩ : ∃ k, outN * (if d = 16 then 2 else 1) = k + 1 := ⟨outN * (if d = 16 then 2 else 1) - 1, by omega⟩
    rw [hk, copyTo, loop, loopFrom, if_pos (by omega), put, if_neg (by simp [fresh])]
    rfl
  have hpass : pass room n outN W H d color (0, 0, 8, 8) (fresh 0, raw) = .ub := by
    simp only [pass]
    rw [if_pos ⟨by omega, by omega⟩, o1, Outcome.bind_ok]
    obtain ⟨a, ha⟩ : ∃ a, passSize W 0 8 = a + 1 := ⟨passSize W 0 8 - 1, by omega⟩
    obtain ⟨b, hb⟩ : ∃ b, passSize H 0 8 = b + 1 := ⟨passSize H 0 8 - 1, by omega⟩
    rw [ha, hb, loop, loopFrom, loop, loopFrom]
    simp only [Nat.zero_mul, Nat.add_zero]
    rw [hcopy]
    rfl
  simp only [createImage]
  rw [if_neg (by decide), mallocMad3, if_neg (by omega), adam7, passes]
  simp only [Option.getD_none]
  rw [hpass]
  rfl

/-- such sizes that the header lets through: 16384 by 16384 pixels of four channels of 16 bits -/
example : 2 ^ 31 ≤ 2 ^ 14 * 2 ^ 14 * (4 * (if 16 = 16 then 2 else 1)) ∧ ¬ 2 ^ 30 / 2 ^ 14 / 4 < 2 ^ 14 := by decide

end Verif.Png
