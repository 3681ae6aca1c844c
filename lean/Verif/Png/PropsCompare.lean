import Verif.Png.CompareModel
import Verif.Png.PropsSafe
import Verif.Catalyst.PropsUtils
import Mathlib.Data.Finset.Card
import Mathlib.Data.Finset.Prod

/-! # Properties of comparing PNG files -/

namespace Verif.Png

/-! ## C148: comparing PNG files as images -/

/-- the file is a PNG file of the picture whose samples are `px`, of at most 2^26 pixels -/
def Shows (p : Picture) (px : Nat → Nat → Nat → Nat) (file : List UInt8) : Prop :=
  ∃ (z raw : List UInt8) (lax : Bool), IsPng p z file ∧ p.Allowed ∧ p.W ≤ 2 ^ 24 ∧ p.H ≤ 2 ^ 24 ∧ p.W * p.H ≤ 2 ^ 26 ∧ z.length ≤ 2 ^ 30 ∧
    Inflate.Inflates lax true z raw ∧ raw.length ≤ 2 ^ 30 ∧ Pixels p.interlaced p.chan p.d p.W p.H px raw ∧
    (p.color = 3 → ∀ Y < p.H, ∀ X < p.W, px Y X 0 < (p.entries.getD []).length)

/-- the number of rows, columns and channels at which two pictures of one size are different -/
def unlike (p q : Picture) (px qx : Nat → Nat → Nat → Nat) : Nat :=
  ((Finset.range p.H ×ˢ Finset.range p.W ×ˢ Finset.range p.channels).filter fun t =>
    p.byte (px t.1 t.2.1) t.2.2 ≠ q.byte (qx t.1 t.2.1) t.2.2).card

theorem countLoop_ok {a b : Buf} {n : Nat} {f g : Nat → UInt8} (ha : ∀ q < n, load a q = .ok (f q)) (hb : ∀ q < n, load b q = .ok (g q)) :
    countLoop a b n = .ok ((Finset.range n).filter fun q => f q ≠ g q).card := by
  obtain ⟨k, h1, h2⟩ := loop_inv (n := n) (s := 0) (f := fun i k => load a i >>= fun x => load b i >>= fun y => .ok (if x ≠ y then k + 1 else k))
    (fun i k => k = ((Finset.range i).filter fun q => f q ≠ g q).card) (by simp) (by
      intro i hi k hk
      refine ⟨_, by rw [ha i hi, Outcome.bind_ok, hb i hi, Outcome.bind_ok], ?_⟩
      rw [Finset.range_add_one, Finset.filter_insert]
      split
      · rw [Finset.card_insert_of_notMem (by simp), hk]
      · exact hk)
  rw [countLoop, h1, h2]

theorem channels_pos {p : Picture} (hp : p.Allowed) : 1 ≤ p.channels ∧ p.channels ≤ 5 := by
  rw [Picture.channels, Picture.chan]
  have := hp.colors
  split <;> split <;> first | omega | (split <;> omega)

/-- **C148** (what holds) Two PNG files compare as similar exactly if the pictures they stand for have the same size and the same channels, and the part of
the bytes in which the pictures are different, rounded, is not more than 2 percent.  How the files are compressed, filtered, cut into chunks or
interlaced, and whether the colours come from a palette, does not matter. -/
theorem C148_compare_iff (fl : ℚ → ℚ) (p q : Picture) (px qx : Nat → Nat → Nat → Nat) (A B : List UInt8) (hA : Shows p px A) (hB : Shows q qx B) :
    ∃ n₀, ∀ rounds room, n₀ ≤ rounds → 2 ^ 31 ≤ room → ∃ r, imageCompare fl rounds room A B = .ok r ∧
      (r = true ↔ p.W = q.W ∧ p.H = q.H ∧ p.channels = q.channels ∧ fl (fl (unlike p q px qx) / fl (p.W * p.H * p.channels : Nat)) ≤ 2 / 100) := by
  obtain ⟨z, raw, lax, a1, a2, a3, a4, a5, a6, a7, a8, a9, a10⟩ := hA
  obtain ⟨z', raw', lax', b1, b2, b3, b4, b5, b6, b7, b8, b9, b10⟩ := hB
  obtain ⟨n1, h1⟩ := C146_decodes p z raw A px lax a1 a2 a3 a4 a5 a6 a7 a8 a9 a10
  obtain ⟨n2, h2⟩ := C146_decodes q z' raw' B qx lax' b1 b2 b3 b4 b5 b6 b7 b8 b9 b10
  refine ⟨n1 + n2, fun rounds room hr hroom => ?_⟩
  obtain ⟨m, g1, g2, g3⟩ := h1 rounds room (by omega) hroom
  obtain ⟨m', k1, k2, k3⟩ := h2 rounds room (by omega) hroom
  rw [imageCompare, g1, k1]
  simp only [tried, Outcome.bind_ok]
  by_cases e1 : p.W = q.W
  swap
  · exact ⟨false, by rw [if_pos e1], by simp [e1]⟩
  rw [if_neg (by simpa using e1)]
  by_cases e2 : p.H = q.H
  swap
  · exact ⟨false, by rw [if_pos e2], by simp [e2]⟩
  rw [if_neg (by simpa using e2)]
  by_cases e3 : p.channels = q.channels
  swap
  · exact ⟨false, by rw [if_pos e3], by simp [e3]⟩
  rw [if_neg (by simpa using e3)]
  have hch := channels_pos a2
  have hsz : p.W * p.H * p.channels ≤ 2 ^ 26 * 5 := Nat.mul_le_mul a5 hch.2
  rw [if_neg (by omega)]
  -- the bytes
  have place : ∀ {Y X c : Nat}, Y < p.H → X < p.W → c < p.channels → (Y * p.W + X) * p.channels + c < p.W * p.H * p.channels := by
    intro Y X c hY hX hc
    have := lt_of_row (stride := p.channels) (place_lt hY hX)
    rw [Nat.mul_comm p.channels, Nat.mul_comm p.channels] at this
    omega
  have la : ∀ i < p.W * p.H * p.channels, load m i = .ok (UInt8.ofNat (flat p.W p.channels (fun Y X => p.byte (px Y X)) i)) := by
    intro i hi
    obtain ⟨Y, hY, X, hX, c, hc, rfl⟩ := decomp hi
    rw [load_ok (by rw [g2]; exact hi) (g3 Y hY X hX c hc).2, flat_at _ hX hc]
  have lb : ∀ i < p.W * p.H * p.channels, load m' i = .ok (UInt8.ofNat (flat p.W p.channels (fun Y X => q.byte (qx Y X)) i)) := by
    intro i hi
    obtain ⟨Y, hY, X, hX, c, hc, rfl⟩ := decomp hi
    have := (k3 Y (by omega) X (by omega) c (by omega)).2
    rw [← e1, ← e3] at this
    rw [load_ok (by rw [k2, ← e1, ← e2, ← e3]; exact hi) this, flat_at _ hX hc]
  rw [countLoop_ok la lb, Outcome.bind_ok]
  have hcount : ((Finset.range (p.W * p.H * p.channels)).filter fun i => UInt8.ofNat (flat p.W p.channels (fun Y X => p.byte (px Y X)) i) ≠
      UInt8.ofNat (flat p.W p.channels (fun Y X => q.byte (qx Y X)) i)).card = unlike p q px qx := by
    rw [unlike]
    refine (Finset.card_bij (fun t _ => (t.1 * p.W + t.2.1) * p.channels + t.2.2) ?_ ?_ ?_).symm
    · rintro ⟨Y, X, c⟩ ht
      simp only [Finset.mem_filter, Finset.mem_product, Finset.mem_range] at ht ⊢
      obtain ⟨⟨hY, hX, hc⟩, hne⟩ := ht
      refine ⟨place hY hX hc, ?_⟩
      rw [flat_at _ hX hc, flat_at _ hX hc]
      intro h
      have l1 := (g3 Y hY X hX c hc).1
      have l2 := (k3 Y (by omega) X (by omega) c (by omega)).1
      have := congrArg UInt8.toNat h
      rw [UInt8.toNat_ofNat', UInt8.toNat_ofNat', Nat.mod_eq_of_lt (by omega), Nat.mod_eq_of_lt (by omega)] at this
      exact hne this
    · rintro ⟨Y, X, c⟩ ht ⟨Y', X', c'⟩ ht' h
      simp only [Finset.mem_filter, Finset.mem_product, Finset.mem_range] at ht ht' h
      have f1 := flat_at (W := p.W) (outN := p.channels) (fun Y _ _ => Y) (Y := Y) ht.1.2.1 ht.1.2.2
      have f2 := flat_at (W := p.W) (outN := p.channels) (fun _ X _ => X) (Y := Y) ht.1.2.1 ht.1.2.2
      have f3 := flat_at (W := p.W) (outN := p.channels) (fun _ _ c => c) (Y := Y) ht.1.2.1 ht.1.2.2
      rw [h, flat_at _ ht'.1.2.1 ht'.1.2.2] at f1 f2 f3
      rw [f1, f2, f3]
    · intro i hi
      simp only [Finset.mem_filter, Finset.mem_range] at hi
      obtain ⟨hi, hne⟩ := hi
      obtain ⟨Y, hY, X, hX, c, hc, rfl⟩ := decomp hi
      refine ⟨(Y, X, c), ?_, rfl⟩
      simp only [Finset.mem_filter, Finset.mem_product, Finset.mem_range]
      refine ⟨⟨hY, hX, hc⟩, fun h => hne ?_⟩
      rw [flat_at _ hX hc, flat_at _ hX hc, h]
  rw [hcount]
  refine ⟨_, rfl, ?_⟩
  simp only [e1, e2, e3, true_and]
  split
  · rename_i h
    simp only [Bool.false_eq_true, false_iff, not_le]
    exact h
  · rename_i h
    simp only [true_iff]
    exact not_lt.mp h

theorem shows_tiny : Shows tiny (fun _ X _ => X) tinyFile :=
  ⟨_, _, _, tiny_png, tiny_allowed, by decide, by decide, by decide, by decide, tiny_inflates, by decide, tiny_pixels, by decide⟩

/-- the same two pixels in red, green, blue and alpha -/
def full : Picture := ⟨2, 1, 8, 6, false, none, none⟩

/-- the samples of such a picture -/
def fullPx (l : List UInt8) : Nat → Nat → Nat → Nat := fun _ X c => (l.getD (X * 4 + c) 0).toNat

/-- a file of it -/
def fullFile (l : List UInt8) : List UInt8 :=
  sig ++ ([mk 'I' 'H' 'D' 'R' full.ihdr, mk 'I' 'D' 'A' 'T' (stored (0 :: l)), mk 'I' 'E' 'N' 'D' []].flatMap Chunk.bytes)

theorem full_png (l : List UInt8) (hl : l.length = 8) : IsPng full (stored (0 :: l)) (fullFile l) := by
  refine ⟨mk 'I' 'H' 'D' 'R' full.ihdr, mk 'I' 'E' 'N' 'D' [], [], [], [], [], [], [mk 'I' 'D' 'A' 'T' (stored (0 :: l))], [], [], ?_, ?_, ?_, ⟨rfl, rfl⟩, rfl, rfl, ?_, ?_, rfl⟩
  · simp [fullFile, sig]
  · intro c hc
    simp only [List.mem_append, List.mem_cons, List.not_mem_nil, or_false] at hc
    rcases hc with (rfl | hc) | rfl
    · simp only [Chunk.Fine]; decide
    · have hc : c = mk 'I' 'D' 'A' 'T' (stored (0 :: l)) := by simpa using hc
      subst hc
      simp [Chunk.Fine, mk, letters, stored, hl]
    · simp only [Chunk.Fine]; decide
  · simp
  · simp [mk]
  · simp [mk]

theorem full_inflates : Inflate.Inflates true true (stored [0, 1, 2, 3, 128, 250, 251, 252, 255]) [0, 1, 2, 3, 128, 250, 251, 252, 255] :=
  (Inflate.C142_malloc_iff true 100 9 (by decide) (by decide) (by decide) _ _ (by decide) (by decide)).mp ⟨30, by decide +kernel⟩

theorem shows_full : Shows full (fullPx [1, 2, 3, 128, 250, 251, 252, 255]) (fullFile [1, 2, 3, 128, 250, 251, 252, 255]) := by
  refine ⟨_, _, _, full_png _ rfl, ⟨by decide, by decide, fun e h => (by cases h), fun h => absurd h (by decide), fun k h => (by cases h)⟩, by decide, by decide, by decide,
    by decide, full_inflates, by decide, ?_, fun h => absurd h (by decide)⟩
  refine ⟨fun _ k => [1, 2, 3, 128, 250, 251, 252, 255].getD k 0, ?_, by decide⟩
  intro j hj
  match j, hj with
  | 0, _ => exact ⟨0, by decide, rfl, by decide⟩

/-- **C148** (what holds) Whatever rounding `float` does, two PNG files of pictures that have the same bytes compare as similar, however different the files
are. -/
theorem C148_same (fl : ℚ → ℚ) (hf : Catalyst.IsFloat fl) (p q : Picture) (px qx : Nat → Nat → Nat → Nat) (A B : List UInt8) (hA : Shows p px A)
    (hB : Shows q qx B) (hW : p.W = q.W) (hH : p.H = q.H) (hc : p.channels = q.channels)
    (hsame : ∀ Y < p.H, ∀ X < p.W, ∀ c < p.channels, p.byte (px Y X) c = q.byte (qx Y X) c) :
    ∃ n₀, ∀ rounds room, n₀ ≤ rounds → 2 ^ 31 ≤ room → imageCompare fl rounds room A B = .ok true := by
  obtain ⟨n₀, h⟩ := C148_compare_iff fl p q px qx A B hA hB
  refine ⟨n₀, fun rounds room hr hroom => ?_⟩
  obtain ⟨r, h1, h2⟩ := h rounds room hr hroom
  have h0 : unlike p q px qx = 0 := by
    rw [unlike, Finset.card_eq_zero, Finset.filter_eq_empty_iff]
    rintro ⟨Y, X, c⟩ ht
    simp only [Finset.mem_product, Finset.mem_range] at ht
    simpa using hsame Y ht.1 X ht.2.1 c ht.2.2
  have fl0 : fl 0 = 0 := by
    have := hf.err 0
    simp only [sub_zero, abs_zero, zero_div] at this
    exact abs_eq_zero.mp (le_antisymm this (abs_nonneg _))
  rw [h1, h2.mpr ⟨hW, hH, hc, by rw [h0, Nat.cast_zero, fl0, zero_div, fl0]; norm_num⟩]

/-- a picture with a palette and one without, that look the same -/
example : ∃ n₀, ∀ rounds room, n₀ ≤ rounds → 2 ^ 31 ≤ room →
    imageCompare id rounds room tinyFile (fullFile [1, 2, 3, 128, 250, 251, 252, 255]) = .ok true :=
  C148_same id ⟨fun x => by simp; positivity⟩ tiny full _ _ _ _ shows_tiny shows_full rfl rfl rfl (by decide)

/-- **C148** (what holds) Whatever rounding `float` does: PNG files of pictures of one size that are different in at most 1.9999 percent of their bytes compare
as similar, and if they are different in at least 2.0001 percent, they do not. -/
theorem C148_threshold (fl : ℚ → ℚ) (hf : Catalyst.IsFloat fl) (p q : Picture) (px qx : Nat → Nat → Nat → Nat) (A B : List UInt8) (hA : Shows p px A)
    (hB : Shows q qx B) (hW : p.W = q.W) (hH : p.H = q.H) (hc : p.channels = q.channels) :
    ∃ n₀, ∀ rounds room, n₀ ≤ rounds → 2 ^ 31 ≤ room →
      (unlike p q px qx * 1000000 ≤ 19999 * (p.W * p.H * p.channels) → imageCompare fl rounds room A B = .ok true) ∧
      (20001 * (p.W * p.H * p.channels) ≤ unlike p q px qx * 1000000 → imageCompare fl rounds room A B = .ok false) := by
  obtain ⟨n₀, h⟩ := C148_compare_iff fl p q px qx A B hA hB
  refine ⟨n₀, fun rounds room hr hroom => ?_⟩
  obtain ⟨r, h1, h2⟩ := h rounds room hr hroom
  obtain ⟨_, _, _, _, hp, _⟩ := hA
  have hpos : 0 < p.W * p.H * p.channels := Nat.mul_pos (Nat.mul_pos hp.size.1 hp.size.2) (channels_pos hp).1
  have ht := Catalyst.fraction_threshold hf (d := (unlike p q px qx : ℚ)) (n := ((p.W * p.H * p.channels : Nat) : ℚ)) (by exact_mod_cast hpos) (by positivity)
  rw [h1]
  constructor
  · intro hle
    rw [h2.mpr ⟨hW, hH, hc, ht.1 (by exact_mod_cast hle)⟩]
  · intro hle
    cases r with
    | false => rfl
    | true => exact absurd (h2.mp rfl).2.2.2 (ht.2 (by exact_mod_cast hle))

/-- one byte of eight is more than 2 percent -/
example : unlike tiny full (fun _ X _ => X) (fullPx [1, 2, 3, 128, 250, 251, 252, 255]) = 0 ∧
    unlike tiny full (fun _ X _ => X) (fullPx [1, 2, 3, 128, 250, 250, 252, 255]) = 1 := by decide +kernel

/-- **C148** (what holds) The order of two PNG files does not matter. -/
theorem C148_order (fl : ℚ → ℚ) (p q : Picture) (px qx : Nat → Nat → Nat → Nat) (A B : List UInt8) (hA : Shows p px A) (hB : Shows q qx B) :
    ∃ n₀, ∀ rounds room, n₀ ≤ rounds → 2 ^ 31 ≤ room → imageCompare fl rounds room A B = imageCompare fl rounds room B A := by
  obtain ⟨n₀, h⟩ := C148_compare_iff fl p q px qx A B hA hB
  obtain ⟨n₁, h'⟩ := C148_compare_iff fl q p qx px B A hB hA
  refine ⟨n₀ + n₁, fun rounds room hr hroom => ?_⟩
  obtain ⟨r, h1, h2⟩ := h rounds room (by omega) hroom
  obtain ⟨r', h1', h2'⟩ := h' rounds room (by omega) hroom
  rw [h1, h1']
  congr 1
  rw [Bool.eq_iff_iff, h2, h2']
  have hu : p.W = q.W → p.H = q.H → p.channels = q.channels → unlike p q px qx = unlike q p qx px := by
    intro e1 e2 e3
    rw [unlike, unlike, e1, e2, e3]
    congr 1
    refine Finset.filter_congr fun t _ => ?_
    exact ne_comm
  constructor
  · rintro ⟨e1, e2, e3, e4⟩
    exact ⟨e1.symm, e2.symm, e3.symm, by rw [← hu e1 e2 e3, ← e1, ← e2, ← e3]; exact e4⟩
  · rintro ⟨e1, e2, e3, e4⟩
    exact ⟨e1.symm, e2.symm, e3.symm, by rw [hu e1.symm e2.symm e3.symm, ← e1, ← e2, ← e3]; exact e4⟩

/-- **C148** (what holds) Whatever two files are compared, the answer is yes or no, unless reading one of them fails an assertion, has undefined behaviour or does
not end, or one of them has a palette: then bytes may be compared that were never set. -/
theorem C148_any_partial (fl : ℚ → ℚ) (rounds room : Nat) (A B : List UInt8) (hA : A.length + 32 ≤ rounds) (hB : B.length + 32 ≤ rounds) :
    (∃ r, imageCompare fl rounds room A B = .ok r) ∨
      (∃ file, (file = A ∨ file = B) ∧ (loadPng rounds room file = .assertFail ∨ loadPng rounds room file = .ub ∨ loadPng rounds room file = .diverges)) ∨
      ∃ file st, (file = A ∨ file = B) ∧ Says rounds room file st ∧ st.color = 3 := by
  rw [imageCompare]
  rcases C147_outcomes rounds room A hA with ⟨e, h⟩ | ⟨st, hs, ⟨a, h, _, _, _, _, _, _, _, asz, alt, abytes⟩ | ⟨h, _⟩ | ⟨h, _⟩ | ⟨h, _⟩⟩
  · rw [h]; exact .inl ⟨_, rfl⟩
  · rcases C147_outcomes rounds room B hB with ⟨e, h'⟩ | ⟨st', hs', ⟨b, h', _, _, _, _, _, _, _, bsz, blt, bbytes⟩ | ⟨h', _⟩ | ⟨h', _⟩ | ⟨h', _⟩⟩
    · rw [h, h']; exact .inl ⟨_, rfl⟩
    · by_cases c1 : st.color = 3
      · exact .inr (.inr ⟨A, st, .inl rfl, hs, c1⟩)
      by_cases c2 : st'.color = 3
      · exact .inr (.inr ⟨B, st', .inr rfl, hs', c2⟩)
      left
      rw [h, h']
      simp only [tried, Outcome.bind_ok]
      split
      · exact ⟨_, rfl⟩
      split
      · exact ⟨_, rfl⟩
      split
      · exact ⟨_, rfl⟩
      rename_i e1 e2 e3
      simp only [ne_eq, not_not] at e1 e2 e3
      rw [if_neg (by omega)]
      have la : ∀ q < a.x * a.y * a.n, load a.out q = .ok ((a.out.at_ q).getD 0) := by
        intro q hq
        obtain ⟨v, hv⟩ := abytes c1 q hq
        rw [load_ok (by rw [asz]; exact hq) hv, hv]; rfl
      have lb : ∀ q < a.x * a.y * a.n, load b.out q = .ok ((b.out.at_ q).getD 0) := by
        intro q hq
        rw [e1, e2, e3] at hq
        obtain ⟨v, hv⟩ := bbytes c2 q hq
        rw [load_ok (by rw [bsz]; exact hq) hv, hv]; rfl
      rw [countLoop_ok la lb]
      exact ⟨_, rfl⟩
    · exact .inr (.inl ⟨B, .inr rfl, .inl h'⟩)
    · exact .inr (.inl ⟨B, .inr rfl, .inr (.inl h')⟩)
    · exact .inr (.inl ⟨B, .inr rfl, .inr (.inr h')⟩)
  · exact .inr (.inl ⟨A, .inl rfl, .inl h⟩)
  · exact .inr (.inl ⟨A, .inl rfl, .inr (.inl h)⟩)
  · exact .inr (.inl ⟨A, .inl rfl, .inr (.inr h)⟩)

/-- files without a palette, one of which is cut off -/
example (fl : ℚ → ℚ) : imageCompare fl 200 (2 ^ 31) ((fileOf [] 1 1 [8, 0, 0, 0, 0] (stored [0, 77])).take 46) (fileOf [] 1 1 [8, 0, 0, 0, 0] (stored [0, 77])) = .ok false := by
  have h : bytesOf (loadPng 200 (2 ^ 31) ((fileOf [] 1 1 [8, 0, 0, 0, 0] (stored [0, 77])).take 46)) = .throws "outofdata" := by decide +kernel
  rw [imageCompare]
  cases hl : loadPng 200 (2 ^ 31) ((fileOf [] 1 1 [8, 0, 0, 0, 0] (stored [0, 77])).take 46) with
  | throws e => rfl
  | _ => rw [hl] at h; cases h

/-- **C148** (what does not hold) A file whose pixels have indices beyond its palette is read without an error, and comparing it with itself compares
bytes that were never set. -/
theorem C148_index_fails (fl : ℚ → ℚ) : imageCompare fl 100 (2 ^ 31) (indexed 1 [7, 8, 9]) (indexed 1 [7, 8, 9]) = .ub := by
  have h : (loadPng 100 (2 ^ 31) (indexed 1 [7, 8, 9]) >>= fun i => .ok (i.x, i.y, i.n, i.out.size, i.out.at_ 0)) = .ok (1, 1, 3, 3, none) := by decide +kernel
  rw [imageCompare]
  cases hl : loadPng 100 (2 ^ 31) (indexed 1 [7, 8, 9]) with
  | ok i =>
    rw [hl, Outcome.bind_ok] at h
    obtain ⟨h1, h2, h3, h4, h5⟩ : i.x = 1 ∧ i.y = 1 ∧ i.n = 3 ∧ i.out.size = 3 ∧ i.out.at_ 0 = none := by simpa using h
    simp only [tried, Outcome.bind_ok, h1, h2, h3]
    rw [if_neg (by decide), if_neg (by decide), if_neg (by decide), if_neg (by decide), countLoop, loop, loopFrom, load, h4, if_pos (by decide), h5]
    rfl
  | _ => rw [hl] at h; cases h

end Verif.Png
