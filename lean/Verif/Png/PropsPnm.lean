import Verif.Png.PnmAny
import Verif.Png.PropsCompare

/-! # Properties of reading and comparing PGM and PPM files -/

namespace Verif.Png

/-! ## C157: PGM and PPM files -/

theorem getD_in {l : List UInt8} {i : Nat} (h : i < l.length) : l.getD i 0 = l[i] := by
  rw [List.getD_eq_getElem?_getD, List.getElem?_eq_getElem h, Option.getD_some]

/-- a PPM file with a comment: one row of two pixels -/
private def twoFile : List UInt8 := [80, 54, 10, 35, 104, 105, 10, 50, 32, 49, 10, 50, 53, 53, 10, 1, 2, 3, 4, 5, 6]

private theorem twoFile_is : IsPnm 3 2 1 255 [1, 2, 3, 4, 5, 6] twoFile :=
  ⟨[10, 35, 104, 105, 10], [50], [32], [49], [10], [50, 53, 53], 10, .inr rfl, rfl,
    .comment [10] [104, 105] 10 [] (by simp [White]) (by decide) (.inl rfl) (.spaces [] (by simp)), by decide,
    ⟨by decide, by simp [Figure], rfl⟩, .spaces _ (by simp [White]), by decide, ⟨by decide, by simp [Figure], rfl⟩,
    .spaces _ (by simp [White]), by decide, ⟨by decide, by simp [Figure], rfl⟩, by simp [White]⟩

/-- **C157** (what holds) A PGM or PPM file in which nothing is missing is read, however its header is laid out and commented: the picture has the width
and the height of the header, one channel or three, and each sample is the byte at its place behind the header. -/
theorem C157_read (rounds room n w h m : Nat) (data file : List UInt8) (hf : IsPnm n w h m data file) (hm : m ≤ 255) (hw : 0 < w) (hh : 0 < h)
    (hsz : n * w * h < 2 ^ 31) (hroom : n * w * h ≤ room) (hall : n * w * h ≤ data.length) (hround : file.length < rounds) :
    ∃ i, loadPnm rounds room file = .ok i ∧ i.x = w ∧ i.y = h ∧ i.n = n ∧ i.out.size = w * h * n ∧
      ∀ Y < h, ∀ X < w, ∀ c < n, load i.out ((Y * w + X) * n + c) = .ok (data.getD ((Y * w + X) * n + c) 0) := by
  have hn : 1 ≤ n ∧ n ≤ 3 := by
    obtain ⟨_, _, _, _, _, _, _, hn, _⟩ := hf
    rcases hn with rfl | rfl <;> omega
  have hnw : n * w ≤ n * w * h := Nat.le_mul_of_pos_right _ hh
  have hwn : w ≤ n * w := Nat.le_mul_of_pos_left _ hn.1
  have hhn : h ≤ n * w * h := Nat.le_mul_of_pos_left _ (Nat.mul_pos hn.1 hw)
  have h1 := loadPnm_ok (room := room) hf (by omega) (by omega) hm hround
  rw [if_neg (by omega), if_neg (by omega)] at h1
  refine ⟨_, h1, rfl, rfl, rfl, by show n * w * h = w * h * n; rw [Nat.mul_comm (w * h), Nat.mul_assoc], fun Y hY X hX c hc => ?_⟩
  have hlt : (Y * w + X) * n + c < n * w * h := by
    have e1 : (Y * w + X + 1) * n ≤ h * w * n := Nat.mul_le_mul_right _ (by
      have : (Y + 1) * w ≤ h * w := Nat.mul_le_mul_right _ (by omega)
      rw [Nat.succ_mul] at this
      omega)
    rw [Nat.succ_mul] at e1
    have : n * w * h = h * w * n := by rw [Nat.mul_comm (n * w), Nat.mul_comm n, Nat.mul_assoc]
    omega
  rw [load_ok (v := data.getD ((Y * w + X) * n + c) 0) hlt]
  simp only
  rw [if_pos hlt, List.getElem?_eq_getElem (by omega), getD_in (by omega)]

example : ∃ i, loadPnm 30 (2 ^ 31) twoFile = .ok i ∧ i.x = 2 ∧ i.y = 1 ∧ i.n = 3 ∧ i.out.size = 2 * 1 * 3 ∧
    ∀ Y < 1, ∀ X < 2, ∀ c < 3, load i.out ((Y * 2 + X) * 3 + c) = .ok (([1, 2, 3, 4, 5, 6] : List UInt8).getD ((Y * 2 + X) * 3 + c) 0) :=
  C157_read 30 (2 ^ 31) 3 2 1 255 _ _ twoFile_is (by decide) (by decide) (by decide) (by decide) (by decide) (by decide) (by decide)

/-- **C157** (what holds) Samples of two bytes are refused: a file whose greatest value is more than 255 gives no picture. -/
theorem C157_deep (rounds room n w h m : Nat) (data file : List UInt8) (hf : IsPnm n w h m data file) (hw : w < 2 ^ 31) (hh : h < 2 ^ 31)
    (hm : 255 < m) (hm2 : m < 2 ^ 31) (hround : file.length < rounds) : loadPnm rounds room file = .throws "max value > 255" := by
  obtain ⟨b1, dw, b2, dh, b3, dm, sep, hn, rfl, hb1, hb1', hdw, hb2, hb2', hdh, hb3, hb3', hdm, hsep⟩ := hf
  simp only [List.length_cons, List.length_append] at hround
  obtain ⟨x1, r1, rfl, hx1⟩ := hb1.head hb1'
  obtain ⟨x2, r2, rfl, hx2⟩ := hb2.head hb2'
  obtain ⟨x3, r3, rfl, hx3⟩ := hb3.head hb3'
  simp only [List.length_cons] at hround
  have hsep' : ¬ Figure sep := by
    intro hfg
    simp only [White, List.mem_cons, List.not_mem_nil, or_false] at hsep
    rcases hsep with rfl | rfl | rfl | rfl | rfl | rfl <;> revert hfg <;> simp [Figure]
  generalize ht : (if n = 3 then 54 else 53 : UInt8) = t
  have htt : ¬ ((80 : UInt8) ≠ 80 ∨ (t ≠ 53 ∧ t ≠ 54)) := by
    subst ht
    rcases hn with rfl | rfl <;> decide
  obtain ⟨hg0, ha0⟩ := start_good (file := 80 :: t :: (x1 :: r1 ++ (dw ++ (x2 :: r2 ++ (dh ++ (x3 :: r3 ++ (dm ++ sep :: data))))))) (by simp)
  obtain ⟨e1, a1, g1⟩ := get_good hg0 ha0
  obtain ⟨e2, a2, g2⟩ := get_good g1 a1
  rw [List.cons_append] at a2
  obtain ⟨e3, a3, g3⟩ := get_good g2 a2
  obtain ⟨s4, h4, a4, g4⟩ := pnmNumber_ok (rounds := rounds) (c := x1) (d := x2) (r := r2 ++ (dh ++ (x3 :: r3 ++ (dm ++ sep :: data)))) hb1 hdw hw g3
    (by rw [a3]; simp) hx2 (by simp only [List.length_cons]; omega)
  obtain ⟨s5, h5, a5, g5⟩ := pnmNumber_ok (rounds := rounds) (c := x2) (d := x3) (r := r3 ++ (dm ++ sep :: data)) hb2 hdh hh g4
    (by rw [a4]; simp) hx3 (by simp only [List.length_cons]; omega)
  obtain ⟨s6, h6, a6, g6⟩ := pnmNumber_ok (rounds := rounds) (c := x3) (d := sep) (r := data) hb3 hdm (by omega) g5
    (by rw [a5]; simp) hsep' (by simp only [List.length_cons]; omega)
  have hlen : 1 ≤ dw.length ∧ 1 ≤ dh.length := ⟨List.length_pos_iff.2 hdw.1, List.length_pos_iff.2 hdh.1⟩
  rw [loadPnm, if_neg (by simp only [List.length_cons, List.length_append]; omega), pnmInfo]
  simp only [e1, e2, e3]
  rw [if_neg htt, h4, Outcome.bind_ok]
  simp only
  rw [h5, Outcome.bind_ok]
  simp only
  rw [h6, Outcome.bind_ok, if_pos (by simp only; omega)]
  rfl

example : loadPnm 30 (2 ^ 31) [80, 53, 32, 49, 32, 49, 32, 50, 53, 54, 10, 1, 2] = .throws "max value > 255" :=
  C157_deep 30 _ 1 1 1 256 [1, 2] _ ⟨[32], [49], [32], [49], [32], [50, 53, 54], 10, .inl rfl, rfl, .spaces _ (by simp [White]), by decide,
    ⟨by decide, by simp [Figure], rfl⟩, .spaces _ (by simp [White]), by decide, ⟨by decide, by simp [Figure], rfl⟩,
    .spaces _ (by simp [White]), by decide, ⟨by decide, by simp [Figure], rfl⟩, by simp [White]⟩ (by decide) (by decide) (by decide) (by decide) (by decide)

/-- **C157** (what holds) Two PGM or PPM files in which nothing is missing compare as similar exactly if they have the same size and number of channels and
the part of the samples that are different, rounded, is not more than 2 percent.  How the headers are laid out, and what follows the samples, does not
matter. -/
theorem C157_compare_iff (fl : ℚ → ℚ) (rounds room n w h m n' w' h' m' : Nat) (data data' A B : List UInt8) (hA : IsPnm n w h m data A)
    (hB : IsPnm n' w' h' m' data' B) (hm : m ≤ 255) (hm' : m' ≤ 255) (hp : 0 < w ∧ 0 < h ∧ 0 < w' ∧ 0 < h')
    (hsz : n * w * h < 2 ^ 31 ∧ n' * w' * h' < 2 ^ 31) (hroom : n * w * h ≤ room ∧ n' * w' * h' ≤ room)
    (hall : n * w * h ≤ data.length ∧ n' * w' * h' ≤ data'.length) (hround : A.length < rounds ∧ B.length < rounds) :
    ∃ r, pnmCompare fl rounds room A B = .ok r ∧ (r = true ↔ w = w' ∧ h = h' ∧ n = n' ∧
      fl (fl ((Finset.range (w * h * n)).filter fun i => data[i]? ≠ data'[i]?).card / fl (w * h * n : Nat)) ≤ 2 / 100) := by
  obtain ⟨a, a1, a2, a3, a4, a5, a6⟩ := C157_read rounds room n w h m data A hA hm hp.1 hp.2.1 hsz.1 hroom.1 hall.1 hround.1
  obtain ⟨b, b1, b2, b3, b4, b5, b6⟩ := C157_read rounds room n' w' h' m' data' B hB hm' hp.2.2.1 hp.2.2.2 hsz.2 hroom.2 hall.2 hround.2
  have hn : 1 ≤ n := by
    obtain ⟨_, _, _, _, _, _, _, hn, _⟩ := hA
    rcases hn with rfl | rfl <;> omega
  have hcomm : n * w * h = w * h * n := by rw [Nat.mul_comm (w * h), Nat.mul_assoc]
  have hcomm' : n' * w' * h' = w' * h' * n' := by rw [Nat.mul_comm (w' * h'), Nat.mul_assoc]
  rw [pnmCompare, a1, b1]
  simp only [tried, Outcome.bind_ok, a2, a3, a4, b2, b3, b4]
  by_cases e1 : w = w'
  swap
  · exact ⟨false, by rw [if_pos e1], by simp [e1]⟩
  rw [if_neg (by simpa using e1)]
  by_cases e2 : h = h'
  swap
  · exact ⟨false, by rw [if_pos e2], by simp [e2]⟩
  rw [if_neg (by simpa using e2)]
  by_cases e3 : n = n'
  swap
  · exact ⟨false, by rw [if_pos e3], by simp [e3]⟩
  rw [if_neg (by simpa using e3)]
  subst e1 e2 e3
  have hwh : w * h ≤ w * h * n := Nat.le_mul_of_pos_right _ hn
  rw [if_neg (by omega)]
  have la : ∀ i < w * h * n, load a.out i = .ok (data.getD i 0) := by
    intro i hi
    obtain ⟨Y, hY, X, hX, c, hc, rfl⟩ := decomp hi
    exact a6 Y hY X hX c hc
  have lb : ∀ i < w * h * n, load b.out i = .ok (data'.getD i 0) := by
    intro i hi
    obtain ⟨Y, hY, X, hX, c, hc, rfl⟩ := decomp hi
    exact b6 Y hY X hX c hc
  rw [countLoop_ok la lb, Outcome.bind_ok]
  have hcount : ((Finset.range (w * h * n)).filter fun i => data.getD i 0 ≠ data'.getD i 0) =
      (Finset.range (w * h * n)).filter fun i => data[i]? ≠ data'[i]? := by
    refine Finset.filter_congr fun i hi => ?_
    rw [Finset.mem_range] at hi
    rw [getD_in (by omega), getD_in (by omega), List.getElem?_eq_getElem (by omega), List.getElem?_eq_getElem (by omega)]
    simp
  have hpos : w * h * n ≠ 0 := Nat.pos_iff_ne_zero.1 (Nat.mul_pos (Nat.mul_pos hp.1 hp.2.1) hn)
  rw [hcount, if_neg hpos]
  refine ⟨_, rfl, ?_⟩
  simp only [true_and]
  split
  · rename_i h
    simp only [Bool.false_eq_true, false_iff, not_le]
    exact h
  · rename_i h
    simp only [true_iff]
    exact not_lt.mp h

/-- the file compared with one whose header is written otherwise -/
example : ∃ r, pnmCompare id 30 (2 ^ 31) twoFile [80, 54, 9, 48, 50, 13, 49, 32, 32, 55, 32, 1, 2, 3, 4, 5, 6, 7, 8] = .ok r ∧
    (r = true ↔ 2 = 2 ∧ 1 = 1 ∧ 3 = 3 ∧ id (id (((Finset.range (2 * 1 * 3)).filter fun i =>
      ([1, 2, 3, 4, 5, 6] : List UInt8)[i]? ≠ ([1, 2, 3, 4, 5, 6, 7, 8] : List UInt8)[i]?).card : ℚ) / id ((2 * 1 * 3 : Nat) : ℚ)) ≤ 2 / 100) :=
  C157_compare_iff id 30 (2 ^ 31) 3 2 1 255 3 2 1 7 _ [1, 2, 3, 4, 5, 6, 7, 8] _ _ twoFile_is
    ⟨[9], [48, 50], [13], [49], [32, 32], [55], 32, .inr rfl, rfl, .spaces _ (by simp [White]), by decide, ⟨by decide, by simp [Figure], rfl⟩,
      .spaces _ (by simp [White]), by decide, ⟨by decide, by simp [Figure], rfl⟩, .spaces _ (by simp [White]), by decide,
      ⟨by decide, by simp [Figure], rfl⟩, by simp [White]⟩
    (by decide) (by decide) (by decide) (by decide) (by decide) (by decide) (by decide)

/-- a PGM file of one pixel -/
private def grey (m v : UInt8) : List UInt8 := [80, 53, 32, 49, 32, 49, 32, 48 + m, 10, v]

private theorem grey_is (m v : UInt8) (hm : m.toNat ≤ 9) : IsPnm 1 1 1 m.toNat [v] (grey m v) := by
  have hadd : (48 + m).toNat = 48 + m.toNat := by
    rw [UInt8.toNat_add]
    show (48 + m.toNat) % 256 = _
    omega
  refine ⟨[32], [49], [32], [49], [32], [48 + m], 10, .inl rfl, rfl, .spaces _ (by simp [White]), by decide, ⟨by decide, by simp [Figure], rfl⟩,
    .spaces _ (by simp [White]), by decide, ⟨by decide, by simp [Figure], rfl⟩, .spaces _ (by simp [White]), by decide, ⟨by simp, ?_, ?_⟩, by simp [White]⟩
  · intro c hc
    rw [List.mem_singleton.1 hc]
    simp only [Figure, hadd]
    omega
  · simp only [decimal, List.foldl_cons, List.foldl_nil, hadd]
    omega

/-- **C157** (what does not hold) The greatest value is not taken into account.  A white pixel written as the value 1 of at most 1 and one written as the
value 9 of at most 9 are not similar, and the white pixel 1 of at most 1 is similar to the dark grey 1 of at most 9. -/
theorem C157_scale_fails (fl : ℚ → ℚ) (hf : Catalyst.IsFloat fl) : ∃ white white' dark : List UInt8,
    IsPnm 1 1 1 1 [1] white ∧ IsPnm 1 1 1 9 [9] white' ∧ IsPnm 1 1 1 9 [1] dark ∧
    pnmCompare fl 20 (2 ^ 31) white white' = .ok false ∧ pnmCompare fl 20 (2 ^ 31) white dark = .ok true := by
  refine ⟨grey 1 1, grey 9 9, grey 9 1, grey_is 1 1 (by decide), grey_is 9 9 (by decide), grey_is 9 1 (by decide), ?_, ?_⟩
  · obtain ⟨r, h1, h2⟩ := C157_compare_iff fl 20 (2 ^ 31) 1 1 1 1 1 1 1 9 [1] [9] _ _ (grey_is 1 1 (by decide)) (grey_is 9 9 (by decide)) (by decide) (by decide)
      (by decide) (by decide) (by decide) (by decide) (by decide)
    rw [h1]
    cases r with
    | false => rfl
    | true =>
      have := (h2.1 rfl).2.2.2
      have ht := (Catalyst.fraction_threshold hf (d := 1) (n := 1) (by norm_num) (by norm_num)).2 (by norm_num)
      have hc : ((Finset.range (1 * 1 * 1)).filter fun i => ([1] : List UInt8)[i]? ≠ ([9] : List UInt8)[i]?).card = 1 := by decide
      rw [hc] at this
      norm_num at this ht
      exact absurd this (not_le.2 ht)
  · obtain ⟨r, h1, h2⟩ := C157_compare_iff fl 20 (2 ^ 31) 1 1 1 1 1 1 1 9 [1] [1] _ _ (grey_is 1 1 (by decide)) (grey_is 9 1 (by decide)) (by decide) (by decide)
      (by decide) (by decide) (by decide) (by decide) (by decide)
    have ht := (Catalyst.fraction_threshold hf (d := 0) (n := 1) (by norm_num) (by norm_num)).1 (by norm_num)
    have hc : ((Finset.range (1 * 1 * 1)).filter fun i => ([1] : List UInt8)[i]? ≠ ([1] : List UInt8)[i]?).card = 0 := by decide
    rw [h1, h2.2 ⟨rfl, rfl, rfl, by rw [hc]; norm_num at ht ⊢; exact ht⟩]

/-- **C157** (what does not hold) A file of which the end is missing is read without an error.  Whatever file it is, comparing it with itself compares
bytes that were never set. -/
theorem C157_cut_fails (fl : ℚ → ℚ) (rounds room n w h m : Nat) (data file : List UInt8) (hf : IsPnm n w h m data file) (hm : m ≤ 255) (hw : 0 < w)
    (hh : 0 < h) (hsz : n * w * h < 2 ^ 31) (hroom : n * w * h ≤ room) (hcut : data.length < n * w * h) (hround : file.length < rounds) :
    (∃ i, loadPnm rounds room file = .ok i ∧ i.x = w ∧ i.y = h ∧ i.n = n) ∧ pnmCompare fl rounds room file file = .ub := by
  have hn : 1 ≤ n := by
    obtain ⟨_, _, _, _, _, _, _, hn, _⟩ := hf
    rcases hn with rfl | rfl <;> omega
  have hnw : n * w ≤ n * w * h := Nat.le_mul_of_pos_right _ hh
  have hwn : w ≤ n * w := Nat.le_mul_of_pos_left _ hn
  have hhn : h ≤ n * w * h := Nat.le_mul_of_pos_left _ (Nat.mul_pos hn hw)
  have hcomm : n * w * h = w * h * n := by rw [Nat.mul_comm (w * h), Nat.mul_assoc]
  have hwh : w * h ≤ w * h * n := Nat.le_mul_of_pos_right _ hn
  have h1 := loadPnm_ok (room := room) hf (by omega) (by omega) hm hround
  rw [if_neg (by omega), if_neg (by omega)] at h1
  refine ⟨⟨_, h1, rfl, rfl, rfl⟩, ?_⟩
  rw [pnmCompare, h1]
  simp only [tried, Outcome.bind_ok]
  rw [if_neg (by simp), if_neg (by simp), if_neg (by simp), if_neg (by omega)]
  have hloop : ∀ (k i : Nat) (v : Nat), i ≤ data.length → data.length < i + k → i + k ≤ n * w * h →
      loopFrom (fun i v => load ⟨n * w * h, fun i => if i < n * w * h then data[i]? else none⟩ i >>= fun x =>
        load ⟨n * w * h, fun i => if i < n * w * h then data[i]? else none⟩ i >>= fun y => .ok (if x ≠ y then v + 1 else v)) k i v = .ub := by
    intro k
    induction k with
    | zero => intro i v h1 h2 _; omega
    | succ k ih =>
      intro i v h1 h2 h3
      rw [loopFrom, load, if_pos (show i < n * w * h by omega)]
      simp only
      rw [if_pos (by omega)]
      by_cases hi : i = data.length
      · subst hi
        rw [List.getElem?_eq_none (Nat.le_refl _)]
        rfl
      · rw [List.getElem?_eq_getElem (by omega)]
        simp only [Outcome.bind_ok]
        exact ih (i + 1) _ (by omega) (by omega) (by omega)
  rw [countLoop, loop, hloop (w * h * n) 0 0 (by omega) (by omega) (by omega)]
  rfl

/-- the file above without its last byte -/
example (fl : ℚ → ℚ) : pnmCompare fl 30 (2 ^ 31) twoFile.dropLast twoFile.dropLast = .ub :=
  (C157_cut_fails fl 30 (2 ^ 31) 3 2 1 255 [1, 2, 3, 4, 5] _ ⟨[10, 35, 104, 105, 10], [50], [32], [49], [10], [50, 53, 53], 10, .inr rfl, rfl,
    .comment [10] [104, 105] 10 [] (by simp [White]) (by decide) (.inl rfl) (.spaces [] (by simp)), by decide,
    ⟨by decide, by simp [Figure], rfl⟩, .spaces _ (by simp [White]), by decide, ⟨by decide, by simp [Figure], rfl⟩,
    .spaces _ (by simp [White]), by decide, ⟨by decide, by simp [Figure], rfl⟩, by simp [White]⟩
    (by decide) (by decide) (by decide) (by decide) (by decide) (by decide) (by decide)).2

/-- a text is read as a picture without pixels -/
theorem loadPnm_text (rounds room : Nat) (t c : UInt8) (text : List UInt8) (ht : t = 53 ∨ t = 54) (hw : ¬ White c) (hf : ¬ Figure c) (h35 : c ≠ 35)
    (hlen : 1 ≤ text.length) (hround : 0 < rounds) :
    ∃ i, loadPnm rounds room (80 :: t :: c :: text) = .ok i ∧ i.x = 0 ∧ i.y = 0 ∧ i.n = (if t = 54 then 3 else 1) := by
  obtain ⟨k, rfl⟩ : ∃ k, rounds = k + 1 := ⟨rounds - 1, by omega⟩
  have hw' : pnmSpace c = false := by
    cases hp : pnmSpace c with
    | false => rfl
    | true => exact absurd ((white_iff c).1 hp) hw
  have hf' : pnmDigit c = false := by
    cases hp : pnmDigit c with
    | false => rfl
    | true => exact absurd ((figure_iff c).1 hp) hf
  have hnum : ∀ s, pnmNumber (k + 1) c s = .ok (0, c, s) := by
    intro s
    rw [pnmNumber, skipBlank, skipSpaces, hw', Bool.and_false, if_neg (by simp), Outcome.bind_ok, if_pos (by simp [h35]), Outcome.bind_ok, pnmInteger, hf',
      Bool.and_false, if_neg (by simp)]
  obtain ⟨hg0, ha0⟩ := start_good (file := 80 :: t :: c :: text) (by simp)
  obtain ⟨e1, a1, g1⟩ := get_good hg0 ha0
  obtain ⟨e2, a2, g2⟩ := get_good g1 a1
  obtain ⟨e3, a3, g3⟩ := get_good g2 a2
  rw [loadPnm, if_neg (by simp only [List.length_cons]; omega), pnmInfo]
  simp only [e1, e2, e3]
  rw [if_neg (by rcases ht with rfl | rfl <;> decide), hnum, Outcome.bind_ok]
  simp only
  rw [hnum, Outcome.bind_ok]
  simp only
  rw [hnum, Outcome.bind_ok, if_neg (by simp), Outcome.bind_ok]
  simp only [Nat.mul_zero]
  rw [if_neg (by decide), if_neg (by omega)]
  exact ⟨_, rfl, rfl, rfl, rfl⟩

/-- **C157** (what does not hold) Files that are no pictures compare as similar, whatever is in them: any two texts of at least four characters that begin with `P5`,
or with `P6`, followed by neither white space nor a digit nor `#`. -/
theorem C157_text_fails (fl : ℚ → ℚ) (rounds room : Nat) (t c c' : UInt8) (text text' : List UInt8) (ht : t = 53 ∨ t = 54) (hc : ¬ White c ∧ ¬ Figure c ∧ c ≠ 35)
    (hc' : ¬ White c' ∧ ¬ Figure c' ∧ c' ≠ 35) (hlen : 1 ≤ text.length ∧ 1 ≤ text'.length) (hround : 0 < rounds) :
    pnmCompare fl rounds room (80 :: t :: c :: text) (80 :: t :: c' :: text') = .ok true := by
  obtain ⟨i, h1, h2, h3, h4⟩ := loadPnm_text rounds room t c text ht hc.1 hc.2.1 hc.2.2 hlen.1 hround
  obtain ⟨j, g1, g2, g3, g4⟩ := loadPnm_text rounds room t c' text' ht hc'.1 hc'.2.1 hc'.2.2 hlen.2 hround
  rw [pnmCompare, h1, g1]
  simp only [tried, Outcome.bind_ok, h2, h3, h4, g2, g3, g4, Nat.zero_mul]
  rw [if_neg (by simp), if_neg (by simp), if_neg (by simp), if_neg (by simp)]
  rfl

/-- `P5: yes` and `P5, no` -/
example (fl : ℚ → ℚ) : pnmCompare fl 1 0 [80, 53, 58, 32, 121, 101, 115] [80, 53, 44, 32, 110, 111] = .ok true :=
  C157_text_fails fl 1 0 53 58 44 _ _ (.inl rfl) (by simp [White, Figure]) (by simp [White, Figure]) (by decide) (by decide)

/-- **C157** (what holds) Whatever a file is, reading it as PGM or PPM ends with an error or a picture; only if there are ten digits in a row in it can there be
undefined behaviour.  The samples of
the picture are bytes of the file, up to its end, and the block has the size of the picture, less than 2 to the 31. -/
theorem C157_any (rounds room : Nat) (file : List UInt8) (hr : file.length + 1 < rounds) :
    (∃ e, loadPnm rounds room file = .throws e) ∨
      (loadPnm rounds room file = .ub ∧ ∃ a ds b, file = a ++ (ds ++ b) ∧ ds.length = 10 ∧ ∀ c ∈ ds, 48 ≤ c.toNat ∧ c.toNat ≤ 57) ∨
      ∃ (i : Image) (pix : List UInt8), loadPnm rounds room file = .ok i ∧ (i.n = 1 ∨ i.n = 3) ∧ i.out.size = i.x * i.y * i.n ∧
        i.x * i.y * i.n < 2 ^ 31 ∧ pix <:+ file ∧ ∀ q < i.x * i.y * i.n, load i.out q = (match pix[q]? with | some v => .ok v | none => .ub) := by
  rcases loadPnm_any rounds room file hr with h | h | ⟨i, pix, h1, h2, _, _, _, h3, h4, h5, h6⟩
  · exact .inl h
  · exact .inr (.inl h)
  · have hcomm : i.n * i.x * i.y = i.x * i.y * i.n := by rw [Nat.mul_comm (i.x * i.y), Nat.mul_assoc]
    rw [hcomm] at h3 h4 h6
    refine .inr (.inr ⟨i, pix, h1, h2, h3, h4, h5, fun q hq => ?_⟩)
    rw [load, if_pos (by rw [h3]; exact hq), h6 q hq]
    cases pix[q]? <;> rfl

/-- a header that goes on to the end of the file in a comment; nine digits in a row are read -/
example : (loadPnm 20 (2 ^ 31) [80, 53, 32, 35, 49] >>= fun i => .ok (i.x, i.y)) = .ok (0, 0) ∧
    (loadPnm 20 (2 ^ 31) [80, 53, 57, 57, 57, 57, 57, 57, 57, 57, 57, 32, 49, 32, 49, 32] >>= fun i => .ok (i.x, i.y)) = .ok (999999999, 1) := by
  decide +kernel

/-- **C157** (what does not hold) A number of 2 to the 31 or more in the header overflows. -/
theorem C157_number_fails (room : Nat) : loadPnm 20 room [80, 53, 32, 50, 49, 52, 55, 52, 56, 51, 54, 52, 56, 32, 49, 32, 49, 32] = .ub := by
  rw [loadPnm, if_neg (by decide), show pnmInfo 20 (Ctx.start [80, 53, 32, 50, 49, 52, 55, 52, 56, 51, 54, 52, 56, 32, 49, 32, 49, 32]) = .ub from rfl]
  rfl

end Verif.Png
