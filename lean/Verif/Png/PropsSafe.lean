import Verif.Png.SafeFile
import Verif.Png.PropsFile

/-! # Properties of reading any file as a PNG file -/

namespace Verif.Png

/-! ## C147: every file -/

/-- the chunks of the file up to `IEND` are read, and this is what they say -/
def Says (rounds room : Nat) (file : List UInt8) (st : St) : Prop :=
  ∃ s, checkSig sig (start file) = some s ∧ gather rounds room rounds {} s = .ok st

/-- the compressed data has a copy from distance 0, or more than 2^30 bytes come of it -/
def Wild (z : List UInt8) (header : Bool) : Prop :=
  (∃ lit dist r out, Inflate.Meets z (Inflate.start header) [] lit dist r out ∧ Inflate.Void z lit dist r) ∨
    ∃ out, Inflate.Writes z (Inflate.start header) [] out ∧ 2 ^ 30 < out.length

theorem checkSig_le : ∀ (bs : List UInt8) (s s' : Src), checkSig bs s = some s' → s'.all.length ≤ s.all.length
  | [], s, s', h => by rw [checkSig] at h; cases h; exact Nat.le_refl _
  | b :: bs, s, s', h => by
    rw [checkSig] at h
    split at h
    · exact Nat.le_trans (checkSig_le bs _ _ h) (get8_le s)
    · cases h

theorem inv_empty : Inv {} := ⟨fun _ => ⟨rfl, rfl, rfl⟩, fun h => (by cases h), by decide, by decide, by decide⟩

/-- how reading a file comes from what its chunks say -/
theorem load_says {rounds room : Nat} {file : List UInt8} (hr : file.length + 32 ≤ rounds) :
    (∃ e, loadPng rounds room file = .throws e) ∨ ∃ st, Says rounds room file st ∧ Inv st ∧
      loadPng rounds room file = (finish rounds room st >>= fun i => if i.depth = 16 then convert16 room i else .ok { i with depth := 8 }) := by
  rw [loadPng]
  cases hs : checkSig sig (start file) with
  | none => exact .inl ⟨_, rfl⟩
  | some s =>
    have hle := checkSig_le _ _ _ hs
    rw [start_all] at hle
    simp only
    rw [chunks_gather]
    rcases gather_out (rounds := rounds) (room := room) (by omega) rounds {} s inv_empty (by omega) with ⟨st, h1, h2⟩ | ⟨e, h1⟩
    · refine .inr ⟨st, ⟨s, hs, h1⟩, h2, ?_⟩
      rw [h1, Outcome.bind_ok]
    · rw [h1]; exact .inl ⟨e, rfl⟩

theorem at_of {m : Buf} {d q v : Nat} (hd : d ≠ 16) (h : sampleAt m d q = .ok v) : ∃ b, m.at_ q = some b := by
  rw [sampleAt, if_neg hd] at h
  exact ⟨_, (sample_at (m := m) (q := q) (v := v) (by rw [sampleAt, if_neg (by decide)]; exact h)).1⟩

/-- **C147** (what holds) Whatever is in a file that is read as a PNG file, there are only these outcomes: an error; a picture of the size the header says with
one to four bytes for each pixel, less than 2^31 of them, every one of which comes from the file unless there is a palette; a failed assertion, if the header says red, green and
blue of 4 bits; undefined behaviour, if the compressed data has a copy from distance 0, or more than 2^30 bytes come of it, or the picture is interlaced
and there is no memory for it; or a loop that does not end.  The last one is not in reading the chunks, but in decoding the compressed data. -/
theorem C147_outcomes (rounds room : Nat) (file : List UInt8) (hr : file.length + 32 ≤ rounds) :
    (∃ e, loadPng rounds room file = .throws e) ∨ ∃ st, Says rounds room file st ∧
      ((∃ i, loadPng rounds room file = .ok i ∧ i.x = st.x ∧ i.y = st.y ∧ i.depth = 8 ∧ 0 < i.x ∧ 0 < i.y ∧ 1 ≤ i.n ∧ i.n ≤ 4 ∧
          i.out.size = i.x * i.y * i.n ∧ i.x * i.y * i.n < 2 ^ 31 ∧ (st.color ≠ 3 → ∀ q < i.x * i.y * i.n, ∃ b, i.out.at_ q = some b)) ∨
        (loadPng rounds room file = .assertFail ∧ st.depth = 4 ∧ (st.color = 2 ∨ st.color = 6)) ∨
        (loadPng rounds room file = .ub ∧ ((∃ z, st.idata = some z ∧ Wild z (!st.iphone)) ∨
          (st.interlace = true ∧ (2 ^ 31 ≤ st.x * st.y * (st.chan * wide st.depth) ∨ room < st.x * st.y * (st.chan * wide st.depth))))) ∨
        (loadPng rounds room file = .diverges ∧ ∃ z, st.idata = some z ∧ Inflate.decodeMalloc rounds room (!st.iphone) st.guess z = .diverges)) := by
  rcases load_says (room := room) hr with h | ⟨st, hsays, hinv, hl⟩
  · exact .inl h
  rw [hl]
  rcases finish_out rounds room hinv with ⟨i, hi, hfull⟩ | ⟨e, hf⟩ | ⟨hg, hgl, z, hz, h⟩
  · rw [hi, Outcome.bind_ok]
    have hgood : Good st := by
      cases hf : st.first with
      | true => rw [finish, if_pos hf] at hi; cases hi
      | false => exact hinv.old hf
    have hsz := hgood.size
    have hn : 1 ≤ i.n ∧ i.n ≤ 4 := by
      rcases hfull.n with ⟨h3, h, _⟩ | ⟨_, h⟩
      · have := (hgood.pal h3).1; omega
      · rw [h, St.chan]
        have := hgood.color
        cases ht : st.trans with
        | false => simp; omega
        | true => have := (hgood.trans ht).1; simp; omega
    have hx := hfull.x
    have hy := hfull.y
    by_cases h16 : st.depth = 16
    · rw [if_pos (by rw [hfull.depth, h16])]
      have h3 : st.color ≠ 3 := by rcases hfull.n with ⟨_, _, h⟩ | ⟨h, _⟩; exact absurd h16 h; exact h
      obtain ⟨s, hs⟩ := hfull.set h3
      by_cases hroom : i.x * i.y * i.n ≤ room
      · rw [h16] at hs
        rw [← hx, ← hy] at hs
        obtain ⟨m, m1, m2, m3⟩ := convert16_ok hroom hs (fun q hq => sample16_lt (hs q hq))
        rw [m1]
        exact .inr ⟨st, hsays, .inl ⟨_, rfl, hx, hy, rfl, by show 0 < i.x; omega, by show 0 < i.y; omega, hn.1, hn.2, m2, by show i.x * i.y * i.n < 2 ^ 31; rw [hx, hy]; exact hfull.lt,
          fun _ q hq => at_of (by decide) (m3 q hq)⟩⟩
      · rw [convert16, if_pos (by omega)]
        exact .inl ⟨_, rfl⟩
    · rw [if_neg (by rw [hfull.depth]; exact h16)]
      have hsize := hfull.size
      rw [wide, if_neg h16, Nat.mul_one] at hsize
      refine .inr ⟨st, hsays, .inl ⟨_, rfl, hx, hy, rfl, by show 0 < i.x; omega, by show 0 < i.y; omega, hn.1, hn.2, ?_, by show i.x * i.y * i.n < 2 ^ 31; rw [hx, hy]; exact hfull.lt,
        fun h3 q hq => ?_⟩⟩
      · show i.out.size = i.x * i.y * i.n
        rw [hsize, hx, hy]
      · obtain ⟨s, hs⟩ := hfull.set h3
        exact at_of h16 (hs q (by rw [← hx, ← hy]; exact hq))
  · rw [hf]; exact .inl ⟨e, rfl⟩
  · refine .inr ⟨st, hsays, ?_⟩
    rcases h with ⟨h1, h2⟩ | ⟨h1, h2⟩ | ⟨raw, _, ⟨h1, h2, h3⟩ | ⟨h1, h2, h3⟩⟩
    · rw [h1]; exact .inr (.inr (.inr ⟨rfl, z, hz, h2⟩))
    · rw [h1]
      refine .inr (.inr (.inl ⟨rfl, .inl ⟨z, hz, ?_⟩⟩))
      have hgs := St.guess_lt hg
      rcases Inflate.C143_malloc rounds room (!st.iphone) st.guess hgs.1 hgl z with ⟨raw, hd, _⟩ | ⟨e, hd⟩ | hd | ⟨_, hd⟩
      · rw [hd] at h2; cases h2
      · rw [hd] at h2; cases h2
      · rw [hd] at h2; cases h2
      · exact hd
    · rw [h1]; exact .inr (.inr (.inl ⟨rfl, .inr ⟨h2, h3⟩⟩))
    · rw [h1]; exact .inr (.inl ⟨rfl, h2, h3⟩)

/-- **C147** (what holds) Reading a file ends, unless its compressed data has one of the symbols 286 and 287, which must not occur. -/
theorem C147_ends_partial (rounds room : Nat) (file : List UInt8) (hr : file.length + 9 * 2 ^ 31 < rounds) (hd : loadPng rounds room file = .diverges) :
    ∃ st z, Says rounds room file st ∧ st.idata = some z ∧ Inflate.Odd z (Inflate.start (!st.iphone)) := by
  rcases load_says (rounds := rounds) (room := room) (file := file) (by omega) with ⟨e, h⟩ | ⟨st, hsays, hinv, hl⟩
  · rw [h] at hd; cases hd
  rw [hl] at hd
  have hlen := hinv.data.1
  rcases finish_out rounds room hinv with ⟨i, hi, _⟩ | ⟨e, hf⟩ | ⟨hg, hgl, z, hz, h⟩
  · rw [hi, Outcome.bind_ok] at hd
    split at hd
    · rename_i h16
      rcases C147_outcomes rounds room file (by omega) with ⟨e, h⟩ | ⟨st', hs', h⟩
      all_goals rw [hl, hi, Outcome.bind_ok, if_pos h16, hd] at h
      · cases h
      · rcases h with ⟨_, h, _⟩ | ⟨h, _⟩ | ⟨h, _⟩ | ⟨_, z, hz, h⟩
        · cases h
        · cases h
        · cases h
        · obtain ⟨s1, a1, a2⟩ := hsays
          obtain ⟨s2, b1, b2⟩ := hs'
          rw [a1] at b1
          cases b1
          rw [a2] at b2
          cases b2
          have hg : Good st := by
            cases hf : st.first with
            | true => rw [finish, if_pos hf] at hi; cases hi
            | false => exact hinv.old hf
          have hgs := St.guess_lt hg
          have hgl : st.guess < 2 ^ 31 := by
            by_contra hbig
            have hf : st.first = false := by cases hf : st.first with | true => rw [finish, if_pos hf] at hi; cases hi | false => rfl
            rw [finish, if_neg (by rw [hf]; decide), hz] at hi
            simp only at hi
            rw [show ((st.x * st.depth + 7) / 8 * st.y * st.n + st.y) % 2 ^ 32 = st.guess from Nat.mod_eq_of_lt hgs.2, if_pos (by omega)] at hi
            cases hi
          rw [hz, Option.getD_some] at hlen
          exact ⟨st, z, ⟨s1, a1, a2⟩, hz, Inflate.C143_malloc_ends_partial rounds room _ _ hgs.1 hgl z (by omega) h⟩
    · cases hd
  · rw [hf] at hd; cases hd
  · have hgs := St.guess_lt hg
    rw [hz, Option.getD_some] at hlen
    rcases h with ⟨h1, h2⟩ | ⟨h1, h2⟩ | ⟨raw, _, ⟨h1, h2, h3⟩ | ⟨h1, h2, h3⟩⟩
    · exact ⟨st, z, hsays, hz, Inflate.C143_malloc_ends_partial rounds room _ _ hgs.1 hgl z (by omega) h2⟩
    all_goals rw [h1] at hd; cases hd

/-- a file with the given header and compressed data -/
def fileOf (before : List Chunk) (w h : Nat) (rest z : List UInt8) : List UInt8 :=
  sig ++ (before ++ [mk 'I' 'H' 'D' 'R' (be32 w ++ be32 h ++ rest), mk 'I' 'D' 'A' 'T' z, mk 'I' 'E' 'N' 'D' []]).flatMap Chunk.bytes

/-- a picture, and errors in a file that is cut off and one that has something else -/
example : (∃ st, Says 200 (2 ^ 31) (fileOf [] 1 1 [8, 0, 0, 0, 0] (stored [0, 77])) st ∧ st.color ≠ 3 ∧ st.x = 1) ∧
    bytesOf (loadPng 200 (2 ^ 31) (fileOf [] 1 1 [8, 0, 0, 0, 0] (stored [0, 77]))) = .ok [some 77] ∧
    bytesOf (loadPng 200 (2 ^ 31) ((fileOf [] 1 1 [8, 0, 0, 0, 0] (stored [0, 77])).take 46)) = .throws "outofdata" ∧
    bytesOf (loadPng 200 (2 ^ 31) ((fileOf [] 1 1 [8, 0, 0, 0, 0] (stored [0, 77])).take 30)) = .throws "XXXX PNG chunk not known" ∧
    (fileOf [] 1 1 [8, 0, 0, 0, 0] (stored [0, 77])).length + 32 ≤ 200 :=
  ⟨⟨_, ⟨_, rfl, rfl⟩, by decide +kernel, by decide +kernel⟩, by decide +kernel, by decide +kernel, by decide +kernel, by decide⟩

set_option maxRecDepth 100000 in
/-- **C147** (what does not hold) Reading a file can read memory that was never written: here one grey pixel, where the compressed data has a copy from
distance 0. -/
theorem C147_void_fails : bytesOf (loadPng 200 (2 ^ 31) (fileOf [] 1 1 [8, 0, 0, 0, 0] [0x78, 0x01, 75, 4, 62, 0])) = .ub := by decide +kernel

set_option maxRecDepth 100000 in
/-- **C147** (what does not hold) When there is no memory for an interlaced picture, nothing says so: its pixels are written to a null pointer.  The same
picture that is not interlaced is an error.  Here it has 80 times 80 pixels of 1 bit,
and there is memory for 5000 bytes at once. -/
theorem C147_null_fails : bytesOf (loadPng 200 5000 (fileOf [] 80 80 [1, 0, 0, 0, 1] (stored (List.replicate 30 0)))) = .ub ∧
    bytesOf (loadPng 200 5000 (fileOf [] 80 80 [1, 0, 0, 0, 0] (stored (List.replicate 30 0)))) = .throws "outofmem" := by
  constructor <;> decide +kernel

/-- a file without the two bytes before the compressed data, which an Apple tool writes, of 1 times 8192 grey pixels -/
def appleFile (z : List UInt8) : List UInt8 := fileOf [mk 'C' 'g' 'B' 'I' [0, 0, 0, 0]] 1 8192 [8, 0, 0, 0, 0] z

/-- what is gathered from such a file -/
def appleSt (z : List UInt8) : St :=
  { first := false, iphone := true, x := 1, y := 8192, n := 1, depth := 8, idata := some z, limit := 4096 }

set_option maxRecDepth 100000 in
theorem apple_hang (r : Nat) : Says (r + 5) (2 ^ 31) (appleFile Inflate.hangStream) (appleSt Inflate.hangStream) := ⟨_, rfl, rfl⟩

set_option maxRecDepth 100000 in
theorem apple_flood (r : Nat) : Says (r + 5) (2 ^ 31) (appleFile Inflate.floodStream) (appleSt Inflate.floodStream) := ⟨_, rfl, rfl⟩

theorem load_of_says {rounds room : Nat} {file : List UInt8} {st : St} (h : Says rounds room file st) :
    loadPng rounds room file = (finish rounds room st >>= fun i => if i.depth = 16 then convert16 room i else .ok { i with depth := 8 }) := by
  obtain ⟨s, h1, h2⟩ := h
  rw [loadPng, h1]
  simp only
  rw [chunks_gather, h2, Outcome.bind_ok]

theorem apple_finish (rounds room : Nat) (z : List UInt8) (o : Outcome (List UInt8)) (ho : ∀ raw, o ≠ .ok raw)
    (h : Inflate.decodeMalloc rounds room false 16384 z = o) : finish rounds room (appleSt z) = o >>= fun _ => .ub := by
  obtain ⟨F, hF⟩ : ∃ F : List UInt8 → Outcome Image, finish rounds room (appleSt z) = Inflate.decodeMalloc rounds room false 16384 z >>= F := by
    have hg : (appleSt z).guess = 16384 := by simp [St.guess, appleSt]
    rw [finish_eq rounds room rfl rfl (by rw [hg]; decide), hg, if_neg (by decide)]
    exact ⟨_, rfl⟩
  rw [hF, h]
  cases o with
  | ok raw => exact absurd rfl (ho raw)
  | _ => rfl

/-- **C147** (what does not hold) Reading a file of a hundred bytes need not end: however many rounds there are, it is not finished. -/
theorem C147_hang_fails (rounds : Nat) (hr : 5 ≤ rounds) : loadPng rounds (2 ^ 31) (appleFile Inflate.hangStream) = .diverges ∧
    (appleFile Inflate.hangStream).length ≤ 100 := by
  obtain ⟨r, rfl⟩ : ∃ r, rounds = r + 5 := ⟨rounds - 5, by omega⟩
  refine ⟨?_, by decide⟩
  rw [load_of_says (apple_hang r), apple_finish _ _ _ .diverges (fun _ h => by cases h) (Inflate.C143_hang_fails _)]
  rfl

/-- **C147** (what does not hold) Another one of less than a hundred bytes makes the size of a buffer greater than any `int`, which is undefined behaviour, if
there is memory for that much. -/
theorem C147_flood_fails (rounds : Nat) (hr : 2 ^ 31 + 1 < rounds) : loadPng rounds (2 ^ 31) (appleFile Inflate.floodStream) = .ub ∧
    (appleFile Inflate.floodStream).length < 100 := by
  obtain ⟨r, rfl⟩ : ∃ r, rounds = r + 5 := ⟨rounds - 5, by omega⟩
  refine ⟨?_, by decide⟩
  rw [load_of_says (apple_flood r), apple_finish _ _ _ .ub (fun _ h => by cases h) (Inflate.C143_flood_fails _ hr)]
  rfl

end Verif.Png
