import Verif.Png.Chunks
import Verif.Png.Colour
import Verif.Inflate.Props

/-! # Files from the beginning to the end -/

namespace Verif.Png

/-- what the header says -/
structure Head (p : Picture) (st : St) : Prop where
  first : st.first = false
  x : st.x = p.W
  y : st.y = p.H
  depth : st.depth = p.d
  color : st.color = p.color
  inter : st.interlace = p.interlaced
  n : st.n = p.chan
  iphone : st.iphone = false

/-- the colours that are transparent as the decoder has them -/
structure Keys (p : Picture) (st : St) : Prop where
  palN : st.palN = if p.color = 3 then (if p.clear.isSome then 4 else 3) else 0
  pal : p.color = 3 → Holds (p.entries.getD []) (p.clear.getD []) st.pal
  palLen : p.color = 3 → st.palLen ≠ 0
  trans : st.trans = (p.clear.isSome && !(p.color == 3))
  tc : ∀ k, p.clear = some k → p.color ≠ 3 → p.d ≠ 16 → st.tc = k.map fun v => v % 256 * (depthScale.getD p.d 0) % 256
  tc16 : ∀ k, p.clear = some k → p.color ≠ 3 → p.d = 16 → st.tc16 = k

theorem Picture.Allowed.depth {p : Picture} (hp : p.Allowed) : p.d = 1 ∨ p.d = 2 ∨ p.d = 4 ∨ p.d = 8 ∨ p.d = 16 := by
  have := hp.colors
  omega

/-- a file is read to its end -/
theorem reads {p : Picture} {z file : List UInt8} (hf : IsPng p z file) (hp : p.Allowed) (hW : p.W ≤ 2 ^ 24) (hH : p.H ≤ 2 ^ 24)
    (hpix : p.W * p.H ≤ 2 ^ 28) (hz : z.length ≤ 2 ^ 30) (hz0 : z ≠ []) :
    ∃ K, ∀ rounds room, K ≤ rounds → 2 ^ 31 ≤ room → ∃ st, Head p st ∧ Keys p st ∧ st.idata = some z ∧
      loadPng rounds room file = finish rounds room st >>= fun i => if i.depth = 16 then convert16 room i else .ok { i with depth := 8 } := by
  obtain ⟨ih, ie, a1, pl, a2, tr, a3, ids, a4, tail, rfl, hfine, hextra, ⟨ih1, ih2⟩, hpl, htr, hid1, hid2, hie⟩ := hf
  refine ⟨33 + (ih :: (a1 ++ pl ++ a2 ++ tr ++ a3 ++ ids ++ a4)).length, fun rounds room hr hroom => ?_⟩
  have fine : ∀ c, c ∈ a1 ∨ c ∈ pl ∨ c ∈ a2 ∨ c ∈ tr ∨ c ∈ a3 ∨ c ∈ ids ∨ c ∈ a4 → c.Fine := fun c hc => hfine c (by
    simp only [List.mem_append, List.mem_cons]; tauto)
  have extra : ∀ c, c ∈ a1 ∨ c ∈ a2 ∨ c ∈ a3 ∨ c ∈ a4 → c.Extra := fun c hc => hextra c (by
    simp only [List.mem_append]; tauto)
  -- the header
  have e1 := eats_header (rounds := rounds) (room := room) hp hW hH hpix ih1 ih2
  obtain ⟨st1, g1, hst1, hpn1, hid, hlim, htrans⟩ : ∃ st, Eats rounds room {} ih st ∧ Head p st ∧ st.palN = (if p.color = 3 then 3 else 0) ∧
      st.idata = none ∧ st.limit = 0 ∧ st.trans = false := ⟨_, e1, ⟨rfl, rfl, rfl, rfl, rfl, rfl, rfl, rfl⟩, rfl, rfl, rfl, rfl⟩
  -- the palette
  obtain ⟨st2, g2, hst2, hpn2, hid2', hlim2, htrans2, hpal2⟩ : ∃ st, EatsAll rounds room st1 pl st ∧ Head p st ∧ st.palN = (if p.color = 3 then 3 else 0) ∧
      st.idata = none ∧ st.limit = 0 ∧ st.trans = false ∧
      (p.color = 3 → st.palLen = (p.entries.getD []).length ∧ 0 < (p.entries.getD []).length ∧ Holds (p.entries.getD []) [] st.pal) := by
    cases he : p.entries with
    | none =>
      rw [he] at hpl
      refine ⟨st1, by rw [hpl]; exact .nil _, hst1, hpn1, hid, hlim, htrans, fun h => ?_⟩
      have := hp.palette h
      rw [he] at this
      cases this
    | some e =>
      rw [he] at hpl
      obtain ⟨c, rfl, hc1, hc2⟩ := hpl
      obtain ⟨h0, h256⟩ := hp.entries e he
      obtain ⟨pal, hh, ee⟩ := eats_palette (rounds := rounds) (room := room) hst1.first h256 hc1 hc2
      exact ⟨_, .cons (fine c (by simp)) (by rw [hc1]; decide) ee (.nil _),
        ⟨hst1.first, hst1.x, hst1.y, hst1.depth, hst1.color, hst1.inter, hst1.n, hst1.iphone⟩, hpn1, hid, hlim, htrans, fun _ => ⟨rfl, h0, hh⟩⟩
  -- what is transparent
  obtain ⟨st3, g3, hst3, hkeys3, hid3, hlim3⟩ : ∃ st, EatsAll rounds room st2 tr st ∧ Head p st ∧ Keys p st ∧ st.idata = none ∧ st.limit = 0 := by
    cases hc : p.clear with
    | none =>
      rw [hc] at htr
      refine ⟨st2, by rw [htr]; exact .nil _, hst2, ⟨?_, ?_, ?_, ?_, ?_, ?_⟩, hid2', hlim2⟩
      · rw [hpn2, hc]; simp
      · intro h; rw [hc]; exact (hpal2 h).2.2
      · intro h; have := hpal2 h; omega
      · rw [htrans2, hc]; rfl
      · intro k hk; rw [hc] at hk; cases hk
      · intro k hk; rw [hc] at hk; cases hk
    | some k =>
      rw [hc] at htr
      obtain ⟨c, rfl, hc1, hc2⟩ := htr
      have fc := fine c (by simp)
      by_cases h3 : p.color = 3
      · obtain ⟨q1, q2, q3⟩ := hpal2 h3
        rw [Picture.trnsData, if_pos h3] at hc2
        have hk : k.length ≤ (p.entries.getD []).length := by
          rcases hp.clear k hc with ⟨h, _⟩ | ⟨h, _⟩ | ⟨_, h, _⟩
          · omega
          · omega
          · exact h
        obtain ⟨pal, hh, ee⟩ := eats_alpha (rounds := rounds) (room := room) hst2.first hid2' (by rw [hpn2, if_pos h3]; decide) q3 q1 q2 (by
          cases hee : p.entries with
          | none => simp
          | some e => exact (hp.entries e hee).2) hk hc1 hc2
        refine ⟨_, .cons fc (by rw [hc1]; decide) ee (.nil _),
          ⟨hst2.first, hst2.x, hst2.y, hst2.depth, hst2.color, hst2.inter, hst2.n, hst2.iphone⟩, ⟨?_, ?_, ?_, ?_, ?_, ?_⟩, hid2', hlim2⟩
        · rw [if_pos h3, hc]; rfl
        · intro _; rw [hc]; exact hh
        · intro _; show st2.palLen ≠ 0; omega
        · show st2.trans = _; rw [htrans2, h3, hc]; rfl
        · intro _ _ h; exact absurd h3 h
        · intro _ _ h; exact absurd h3 h
      · rw [Picture.trnsData, if_neg h3] at hc2
        obtain ⟨hk1, hk2, hk3⟩ : st2.n = k.length ∧ k.length % 2 = 1 ∧ ∀ v ∈ k, v < 2 ^ p.d := by
          rw [hst2.n, Picture.chan]
          rcases hp.clear k hc with ⟨h, h1, h2⟩ | ⟨h, h1, h2⟩ | ⟨h, _⟩
          · rw [h, h1]; exact ⟨rfl, rfl, h2⟩
          · rw [h, h1]; exact ⟨rfl, rfl, h2⟩
          · exact absurd h h3
        have hd := hp.depth
        have ee := eats_key (rounds := rounds) (room := room) hst2.first hid2' (by rw [hpn2, if_neg h3]) hk1 hk2 (fun v hv =>
          Nat.lt_of_lt_of_le (hk3 v hv) (Nat.pow_le_pow_right (by decide) (by omega))) (by rw [hst2.depth]; omega) hc1 hc2
        have e3 : (p.color == 3) = false := by simpa using h3
        by_cases h16 : p.d = 16
        · rw [if_pos (by rw [hst2.depth, h16])] at ee
          refine ⟨_, .cons fc (by rw [hc1]; decide) ee (.nil _),
            ⟨hst2.first, hst2.x, hst2.y, hst2.depth, hst2.color, hst2.inter, hst2.n, hst2.iphone⟩, ⟨?_, ?_, ?_, ?_, ?_, ?_⟩, hid2', hlim2⟩
          · show st2.palN = _; rw [hpn2, if_neg h3, if_neg h3]
          · intro h; exact absurd h h3
          · intro h; exact absurd h h3
          · rw [e3, hc]; rfl
          · intro _ _ _ h; exact absurd h16 h
          · intro k' hk' _ _; rw [hc] at hk'; cases hk'; rfl
        · rw [if_neg (by rw [hst2.depth]; exact h16)] at ee
          refine ⟨_, .cons fc (by rw [hc1]; decide) ee (.nil _),
            ⟨hst2.first, hst2.x, hst2.y, hst2.depth, hst2.color, hst2.inter, hst2.n, hst2.iphone⟩, ⟨?_, ?_, ?_, ?_, ?_, ?_⟩, hid2', hlim2⟩
          · show st2.palN = _; rw [hpn2, if_neg h3, if_neg h3]
          · intro h; exact absurd h h3
          · intro h; exact absurd h h3
          · rw [e3, hc]; rfl
          · intro k' hk' _ _; rw [hc] at hk'; cases hk'; show k.map _ = _; rw [hst2.depth]
          · intro _ _ _ h; exact absurd h h16
  -- the compressed data
  obtain ⟨idata, limit, g4, hid4⟩ := eats_datas (rounds := rounds) (room := room) (by omega) hroom (cs := ids) (st := st3) hst3.first (by
      rw [hkeys3.palN]
      by_cases h3 : p.color = 3
      · exact .inr (hkeys3.palLen h3)
      · rw [if_neg h3]; exact .inl rfl) (by rw [hlim3]; decide) (by rw [hid3]; exact Nat.zero_le _) (fun _ => hlim3) (fun c hc => fine c (by simp [hc])) hid1 (by
      rw [hid3, hid2]; simpa using hz)
  rw [hid3, hid2, Option.getD_none, List.nil_append] at hid4
  have hsome : idata = some z := by
    cases idata with
    | none => exact absurd hid4.symm hz0
    | some d => exact congrArg some hid4
  subst hsome
  refine ⟨{ st3 with idata := some z, limit := limit }, ⟨hst3.first, hst3.x, hst3.y, hst3.depth, hst3.color, hst3.inter, hst3.n, hst3.iphone⟩,
    ⟨hkeys3.palN, hkeys3.pal, hkeys3.palLen, hkeys3.trans, hkeys3.tc, hkeys3.tc16⟩, rfl, ?_⟩
  have all : EatsAll rounds room {} (ih :: (a1 ++ pl ++ a2 ++ tr ++ a3 ++ ids ++ a4)) { st3 with idata := some z, limit := limit } := by
    refine .cons (hfine ih (by simp)) (by rw [ih1]; decide) g1 ?_
    have x1 := eats_extras (rounds := rounds) (room := room) hst1.first (cs := a1) (fun c hc => fine c (by simp [hc])) (fun c hc => extra c (by simp [hc]))
    have x2 := eats_extras (rounds := rounds) (room := room) hst2.first (cs := a2) (fun c hc => fine c (by simp [hc])) (fun c hc => extra c (by simp [hc]))
    have x3 := eats_extras (rounds := rounds) (room := room) hst3.first (cs := a3) (fun c hc => fine c (by simp [hc])) (fun c hc => extra c (by simp [hc]))
    have x4 := eats_extras (rounds := rounds) (room := room) (st := { st3 with idata := some z, limit := limit }) hst3.first (cs := a4)
      (fun c hc => fine c (by simp [hc])) (fun c hc => extra c (by simp [hc]))
    exact (((((x1.append g2).append x2).append g3).append x3).append g4).append x4
  obtain ⟨s0, hs0, hs0'⟩ := checkSig_all sig (s := start ([137, 80, 78, 71, 13, 10, 26, 10] ++
      ((ih :: (a1 ++ pl ++ a2 ++ tr ++ a3 ++ ids ++ a4) ++ [ie]).flatMap Chunk.bytes) ++ tail))
      (r := (ih :: (a1 ++ pl ++ a2 ++ tr ++ a3 ++ ids ++ a4) ++ [ie]).flatMap Chunk.bytes ++ tail) (by
    rw [start_all, List.append_assoc]; rfl)
  rw [loadPng, hs0]
  simp only
  rw [List.flatMap_append, List.append_assoc] at hs0'
  obtain ⟨s1, hs1, hs1'⟩ := all.go hs0' (rounds - (ih :: (a1 ++ pl ++ a2 ++ tr ++ a3 ++ ids ++ a4)).length)
  rw [Nat.sub_add_cancel (by omega)] at hs1
  rw [hs1, show rounds - (ih :: (a1 ++ pl ++ a2 ++ tr ++ a3 ++ ids ++ a4)).length = (rounds - (ih :: (a1 ++ pl ++ a2 ++ tr ++ a3 ++ ids ++ a4)).length - 1) + 1 by omega]
  rw [chunk_end (hfine ie (by simp)) hie (r := tail) (by rw [hs1']; simp)]

/-! ## The colours -/

theorem sample16_lt {m : Buf} {q v : Nat} (h : sampleAt m 16 q = .ok v) : v < 65536 := by
  have h := sample16 h
  rw [load16] at h
  cases hl : load m (2 * q) with
  | ok l =>
    rw [hl, Outcome.bind_ok] at h
    cases hh : load m (2 * q + 1) with
    | ok k =>
      rw [hh, Outcome.bind_ok] at h
      cases h
      have := l.toNat_lt
      have := k.toNat_lt
      omega
    | _ => rw [hh] at h; cases h
  | _ => rw [hl] at h; cases h

/-- samples in the order of their places -/
def flat (W outN : Nat) (F : Nat → Nat → Nat → Nat) (q : Nat) : Nat := F (q / outN / W) (q / outN % W) (q % outN)

theorem flat_at {W outN : Nat} (F : Nat → Nat → Nat → Nat) {Y X c : Nat} (hX : X < W) (hc : c < outN) : flat W outN F ((Y * W + X) * outN + c) = F Y X c := by
  have h1 : ((Y * W + X) * outN + c) / outN = Y * W + X := by
    rw [Nat.mul_comm, Nat.mul_add_div (by omega), Nat.div_eq_of_lt hc, Nat.add_zero]
  have h2 : ((Y * W + X) * outN + c) % outN = c := by
    rw [Nat.mul_comm, Nat.mul_add_mod, Nat.mod_eq_of_lt hc]
  have h3 : (Y * W + X) / W = Y := by
    rw [Nat.mul_comm, Nat.mul_add_div (by omega), Nat.div_eq_of_lt hX, Nat.add_zero]
  have h4 : (Y * W + X) % W = X := by
    rw [Nat.mul_comm, Nat.mul_add_mod, Nat.mod_eq_of_lt hX]
  rw [flat, h1, h2, h3, h4]

theorem flat_all {m : Buf} {d W H outN : Nat} {F : Nat → Nat → Nat → Nat}
    (h : ∀ Y < H, ∀ X < W, ∀ c < outN, sampleAt m d ((Y * W + X) * outN + c) = .ok (F Y X c)) :
    ∀ q < W * H * outN, sampleAt m d q = .ok (flat W outN F q) := by
  intro q hq
  obtain ⟨Y, hY, X, hX, c, hc, rfl⟩ := decomp hq
  rw [h Y hY X hX c hc, flat_at F hX hc]

theorem place_lt {Y X W H : Nat} (hY : Y < H) (hX : X < W) : Y * W + X < W * H := by
  have := lt_of_row (stride := W) hY
  rw [Nat.mul_comm W Y] at this
  omega

/-- a key stays one when it is scaled -/
theorem key_iff {p : Picture} (hp : p.Allowed) {k : List Nat} (hk : ∀ v ∈ k, v < 2 ^ p.d) (h16 : p.d ≠ 16) (h02 : p.color = 0 ∨ p.color = 2) (v : Nat → Nat) (n : Nat) :
    (List.range n).map (fun c => shown p.color p.d (v c)) = k.map (fun v => v % 256 * (depthScale.getD p.d 0) % 256) ↔ (List.range n).map v = k := by
  have inj : ∀ a b, b < 2 ^ p.d → (shown p.color p.d a = b % 256 * (depthScale.getD p.d 0) % 256 ↔ a = b) := by
    intro a b hb
    have hc := hp.colors
    rw [shown]
    rcases hp.depth with h | h | h | h | h
    · rw [h] at hb ⊢
      rw [if_pos ⟨by decide, by omega⟩]
      simp only [depthScale, List.getD_cons_succ, List.getD_cons_zero, Nat.reducePow, Nat.reduceSub] at *
      omega
    · rw [h] at hb ⊢
      rw [if_pos ⟨by decide, by omega⟩]
      simp only [depthScale, List.getD_cons_succ, List.getD_cons_zero, Nat.reducePow, Nat.reduceSub] at *
      omega
    · rw [h] at hb ⊢
      rw [if_pos ⟨by decide, by omega⟩]
      simp only [depthScale, List.getD_cons_succ, List.getD_cons_zero, Nat.reducePow, Nat.reduceSub] at *
      omega
    · rw [h] at hb ⊢
      rw [if_neg (by omega)]
      simp only [depthScale, List.getD_cons_succ, List.getD_cons_zero, Nat.reducePow] at *
      omega
    · exact absurd h h16
  have key : ∀ (l k : List Nat), (∀ v ∈ k, v < 2 ^ p.d) →
      (l.map (fun c => shown p.color p.d (v c)) = k.map (fun v => v % 256 * (depthScale.getD p.d 0) % 256) ↔ l.map v = k) := by
    intro l
    induction l with
    | nil => intro k _; cases k <;> simp
    | cons a l ih =>
      intro k hk
      cases k with
      | nil => simp
      | cons b k =>
        rw [List.map_cons, List.map_cons, List.map_cons, List.cons.injEq, List.cons.injEq, ih k (fun w hw => hk w (by simp [hw])), inj _ _ (hk b (by simp))]
  exact key _ _ hk

/-- the picture that a file stands for -/
theorem finished {p : Picture} {z raw : List UInt8} {px : Nat → Nat → Nat → Nat} {lax : Bool} (hp : p.Allowed) (hW : p.W ≤ 2 ^ 24) (hH : p.H ≤ 2 ^ 24)
    (hpix : p.W * p.H ≤ 2 ^ 26) (hi : Inflate.Inflates lax true z raw) (hraw : raw.length ≤ 2 ^ 30)
    (hpx : Pixels p.interlaced p.chan p.d p.W p.H px raw) (hidx : p.color = 3 → ∀ Y < p.H, ∀ X < p.W, px Y X 0 < (p.entries.getD []).length) :
    ∃ n₀, ∀ rounds room st, n₀ ≤ rounds → 2 ^ 31 ≤ room → Head p st → Keys p st → st.idata = some z →
      ∃ m, finish rounds room st = .ok ⟨p.W, p.H, p.channels, p.d, m⟩ ∧ m.size = p.W * p.H * (p.channels * (if p.d = 16 then 2 else 1)) ∧
        ∀ Y < p.H, ∀ X < p.W, ∀ c < p.channels, sampleAt m p.d ((Y * p.W + X) * p.channels + c) = .ok (p.value (px Y X) c) := by
  obtain ⟨n₀, hn⟩ := Inflate.parse_complete hi
  refine ⟨n₀, fun rounds room st hr hroom hh hk hid => ?_⟩
  have hcol := hp.colors
  have hsz := hp.size
  have hchan : p.chan = 1 ∨ p.chan = 2 ∨ p.chan = 3 ∨ p.chan = 4 := by
    rw [Picture.chan]
    split <;> simp
  have hchan1 : p.d < 8 → p.chan = 1 := fun h => by
    rw [Picture.chan]
    split <;> omega
  have hrl : (p.W * p.d + 7) / 8 * p.H * p.chan + p.H < 2 ^ 31 := by
    have h1 : (p.W * p.d + 7) / 8 ≤ 2 * p.W := by
      have := hp.depth
      have : p.W * p.d ≤ p.W * 16 := Nat.mul_le_mul_left _ (by omega)
      omega
    have h2 : (p.W * p.d + 7) / 8 * p.H * p.chan ≤ 2 * p.W * p.H * 4 := Nat.mul_le_mul (Nat.mul_le_mul_right _ h1) (by omega)
    rw [Nat.mul_assoc 2] at h2
    omega
  have hrl1 : 1 ≤ (p.W * p.d + 7) / 8 * p.H * p.chan + p.H := by omega
  obtain ⟨z', z1, z2⟩ := hn rounds hr (cap := (p.W * p.d + 7) / 8 * p.H * p.chan + p.H) (room := room) (exp := true) (fun _ => ⟨hrl1, hrl⟩)
    (.inr ⟨rfl, hrl1, hraw, by show 2 * raw.length ≤ room; omega⟩)
  have hdec : Inflate.decodeMalloc rounds room true ((p.W * p.d + 7) / 8 * p.H * p.chan + p.H) z = .ok raw := by
    rw [Inflate.decodeMalloc, if_neg (by omega), z1, Outcome.bind_ok, z2]
  -- the samples
  have sizes : ∀ outN, (outN = p.chan ∨ (outN = p.chan + 1 ∧ (p.chan = 1 ∨ p.chan = 3))) → Sizes p.chan outN p.W p.H p.d ∧
      p.W * p.H * (outN * (if p.d = 16 then 2 else 1)) ≤ 2 ^ 29 := by
    intro outN ho
    have hb : outN * (if p.d = 16 then 2 else 1) ≤ 8 := by split <;> omega
    have hs : p.W * p.H * (outN * (if p.d = 16 then 2 else 1)) ≤ 2 ^ 26 * 8 := Nat.mul_le_mul hpix hb
    refine ⟨⟨by omega, hsz.1, hp.depth, by omega, fun h => by rw [hchan1 h]; omega, fun h _ => .inl (hchan1 h), by omega, ?_⟩, by omega⟩
    have : p.chan * p.W * p.d ≤ 4 * 2 ^ 24 * 16 := Nat.mul_le_mul (Nat.mul_le_mul (by omega) hW) (by have := hp.depth; omega)
    omega
  rw [finish, if_neg (by rw [hh.first]; decide), hid]
  simp only [hh.x, hh.y, hh.depth, hh.n, hh.color, hh.inter, hh.iphone, Nat.mod_eq_of_lt (show _ < 2 ^ 32 from Nat.lt_trans hrl (by decide)), Bool.not_false]
  rw [if_neg (by omega), hdec, Outcome.bind_ok]
  by_cases h3 : p.color = 3
  · -- a palette
    have hch : p.chan = 1 := by simp [Picture.chan, h3]
    have h16 : p.d ≠ 16 := by omega
    have htr : st.trans = false := by rw [hk.trans, h3]; cases p.clear.isSome <;> rfl
    obtain ⟨s1, s2⟩ := sizes p.chan (.inl rfl)
    obtain ⟨m, m1, m2, m3⟩ := createImage_ok (room := room) p.color s1 hsz.2 hW hH (by omega) hpx
    rw [hch] at m1 m3
    rw [htr, if_neg (by decide), hch, m1, Outcome.bind_ok, if_neg (by decide), Outcome.bind_ok]
    have hpn : st.palN = p.channels := by rw [hk.palN, if_pos h3, Picture.channels, if_pos h3]
    have hpn34 : p.channels = 3 ∨ p.channels = 4 := by rw [Picture.channels, if_pos h3]; split <;> simp
    have hlen : (p.entries.getD []).length ≤ 256 := by
      have := hp.palette h3
      obtain ⟨e, he⟩ := Option.isSome_iff_exists.mp this
      rw [he]
      exact (hp.entries e he).2
    have hsmall : p.W * p.H * p.channels ≤ 2 ^ 26 * 4 := Nat.mul_le_mul hpix (by omega)
    obtain ⟨m', e1, e2, e3⟩ := expandPalette_ok (room := room) (count := p.W * p.H) (palN := p.channels) (pal := st.pal) (m := m)
      (s := fun i => UInt8.ofNat (px (i / p.W) (i % p.W) 0)) (by omega) (by omega) (by
        intro i hi
        obtain ⟨Y, hY, X, hX, c, hc, rfl⟩ := decomp (N := 1) (by rw [Nat.mul_one]; exact hi)
        have hc0 : c = 0 := by omega
        subst hc0
        have hlt := hidx h3 Y hY X hX
        obtain ⟨b, hb1, hb2⟩ := sample8 h16 (m3 Y hY X hX 0 (by decide))
        rw [if_pos (by decide), shown, if_neg (by omega)] at hb2
        rw [hb1]
        congr 1
        apply UInt8.toNat_inj.mp
        rw [Nat.mul_one, Nat.add_zero, show (Y * p.W + X) / p.W = Y by
            rw [Nat.mul_comm, Nat.mul_add_div (by omega), Nat.div_eq_of_lt hX, Nat.add_zero],
          show (Y * p.W + X) % p.W = X by rw [Nat.mul_comm, Nat.mul_add_mod, Nat.mod_eq_of_lt hX], UInt8.toNat_ofNat', Nat.mod_eq_of_lt (by omega), hb2])
    refine ⟨m', ?_, by rw [e2, if_neg h16, Nat.mul_one], ?_⟩
    · rw [if_pos (by rw [hpn]; omega), hpn, e1, Outcome.bind_ok]
    · intro Y hY X hX c hc
      have hplace := place_lt hY hX
      have hlt := hidx h3 Y hY X hX
      have hat := e3 (Y * p.W + X) hplace c hc
      rw [show (Y * p.W + X) / p.W = Y by
            rw [Nat.mul_comm, Nat.mul_add_div (by omega), Nat.div_eq_of_lt hX, Nat.add_zero],
          show (Y * p.W + X) % p.W = X by rw [Nat.mul_comm, Nat.mul_add_mod, Nat.mod_eq_of_lt hX], UInt8.toNat_ofNat', Nat.mod_eq_of_lt (by omega),
          Nat.mul_comm p.channels] at hat
      obtain ⟨k1, k2, k3, k4⟩ := hk.pal h3 (px Y X 0) _ (List.getElem?_eq_getElem hlt)
      have hsz' : (Y * p.W + X) * p.channels + c < m'.size := by
        rw [e2]
        have := lt_of_row (stride := p.channels) hplace
        rw [Nat.mul_comm p.channels, Nat.mul_comm p.channels] at this
        omega
      have hval : ∃ b : UInt8, st.pal (px Y X 0 * 4 + c) = some b ∧ b.toNat = p.value (px Y X) c := by
        have hg : (p.entries.getD []).getD (px Y X 0) (0, 0, 0) = (p.entries.getD [])[px Y X 0] := by
          rw [List.getD_eq_getElem?_getD, List.getElem?_eq_getElem hlt]; rfl
        rw [Picture.value, if_pos h3]
        simp only [hg]
        rcases (show c = 0 ∨ c = 1 ∨ c = 2 ∨ c = 3 by omega) with rfl | rfl | rfl | rfl
        · exact ⟨_, k1, rfl⟩
        · exact ⟨_, k2, rfl⟩
        · exact ⟨_, k3, rfl⟩
        · refine ⟨_, k4, ?_⟩
          show _ = (p.clear.getD []).getD (px Y X 0) 255
          rw [UInt8.toNat_ofNat']
          refine Nat.mod_eq_of_lt ?_
          rw [List.getD_eq_getElem?_getD]
          cases hg : (p.clear.getD [])[px Y X 0]? with
          | none => decide
          | some v =>
            have hv := List.mem_of_getElem? hg
            cases hcl : p.clear with
            | none => rw [hcl] at hv; simp at hv
            | some k =>
              rw [hcl] at hv
              rcases hp.clear k hcl with ⟨h, _⟩ | ⟨h, _⟩ | ⟨_, _, h⟩
              · omega
              · omega
              · exact h v hv
      obtain ⟨b, hb1, hb2⟩ := hval
      rw [sampleAt, if_neg h16, load_ok hsz' (hat.trans hb1), Outcome.bind_ok, hb2]
  · have hpn : st.palN = 0 := by rw [hk.palN, if_neg h3]
    cases hcl : p.clear with
    | none =>
      -- nothing transparent
      have htr : st.trans = false := by rw [hk.trans, hcl]; rfl
      have hchs : p.channels = p.chan := by rw [Picture.channels, if_neg h3, hcl]; simp
      obtain ⟨s1, s2⟩ := sizes p.chan (.inl rfl)
      obtain ⟨m, m1, m2, m3⟩ := createImage_ok (room := room) p.color s1 hsz.2 hW hH (by omega) hpx
      refine ⟨m, ?_, by rw [hchs]; exact m2, ?_⟩
      · rw [htr, if_neg (by decide), m1, Outcome.bind_ok, if_neg (by decide), Outcome.bind_ok, if_neg (by rw [hpn]; decide), hchs]
      · intro Y hY X hX c hc
        rw [hchs] at hc ⊢
        rw [m3 Y hY X hX c hc, if_pos hc, Picture.value, if_neg h3, if_pos hc]
    | some k =>
      -- a colour that is transparent
      have htr : st.trans = true := by
        rw [hk.trans, hcl]
        simp [h3]
      have hchs : p.channels = p.chan + 1 := by rw [Picture.channels, if_neg h3, hcl]; simp
      obtain ⟨h02, hklen, hkv⟩ : (p.color = 0 ∨ p.color = 2) ∧ k.length = p.chan ∧ ∀ v ∈ k, v < 2 ^ p.d := by
        rw [Picture.chan]
        rcases hp.clear k hcl with ⟨h, h1, h2⟩ | ⟨h, h1, h2⟩ | ⟨h, _⟩
        · rw [h, h1]; exact ⟨.inl rfl, rfl, h2⟩
        · rw [h, h1]; exact ⟨.inr rfl, rfl, h2⟩
        · exact absurd h h3
      have hch13 : p.chan = 1 ∨ p.chan = 3 := by
        rw [Picture.chan]
        rcases h02 with h | h <;> rw [h] <;> simp
      obtain ⟨s1, s2⟩ := sizes (p.chan + 1) (.inr ⟨rfl, hch13⟩)
      obtain ⟨m, m1, m2, m3⟩ := createImage_ok (room := room) p.color s1 hsz.2 hW hH (by omega) hpx
      rw [htr, if_pos rfl, m1, Outcome.bind_ok, if_pos rfl]
      have hall := flat_all m3
      have halpha : ∀ i < p.W * p.H, flat p.W (p.chan + 1) (fun Y X c => if c < p.chan then shown p.color p.d (px Y X c) else top p.d)
          (i * (p.chan + 1) + (p.chan + 1 - 1)) = top p.d := by
        intro i hi
        have h1 : (i * (p.chan + 1) + (p.chan + 1 - 1)) % (p.chan + 1) = p.chan := by
          rw [Nat.mul_comm, Nat.mul_add_mod, Nat.mod_eq_of_lt (by omega)]; omega
        rw [flat]
        simp only [h1, Nat.lt_irrefl, if_false]
      have hres : ∀ (m' : Buf) (tc : List Nat), (∀ Y X, (List.range p.chan).map (fun c => shown p.color p.d (px Y X c)) = tc ↔ (List.range p.chan).map (px Y X) = k) →
          (∀ q < p.W * p.H * (p.chan + 1), sampleAt m' p.d q =
            .ok (keyed (flat p.W (p.chan + 1) (fun Y X c => if c < p.chan then shown p.color p.d (px Y X c) else top p.d)) (p.chan + 1) (p.W * p.H) (top p.d) tc q)) →
          ∀ Y < p.H, ∀ X < p.W, ∀ c < p.chan + 1, sampleAt m' p.d ((Y * p.W + X) * (p.chan + 1) + c) = .ok (p.value (px Y X) c) := by
        intro m' tc htc hm' Y hY X hX c hc
        have hplace := place_lt hY hX
        rw [hm' _ (by
          have := lt_of_row (stride := p.chan + 1) hplace
          rw [Nat.mul_comm (p.chan + 1), Nat.mul_comm (p.chan + 1)] at this
          omega), Picture.value, if_neg h3]
        by_cases hcc : c < p.chan
        · rw [keyed_other _ _ _ _ (by omega), flat_at _ hX hc, if_pos hcc, if_pos hcc]
        · have hc' : c = p.chan + 1 - 1 := by omega
          rw [if_neg hcc, hc', keyed_last _ hplace _ _ (by omega), hcl, Option.getD_some]
          congr 1
          have hmap : (List.range (p.chan + 1 - 1)).map (fun c => flat p.W (p.chan + 1) (fun Y X c => if c < p.chan then shown p.color p.d (px Y X c) else top p.d)
              ((Y * p.W + X) * (p.chan + 1) + c)) = (List.range p.chan).map (fun c => shown p.color p.d (px Y X c)) := by
            rw [Nat.add_sub_cancel]
            refine List.map_congr_left fun c hc => ?_
            have hc := List.mem_range.mp hc
            rw [flat_at _ hX (by omega), if_pos hc]
          rw [hmap]
          by_cases hm : (List.range p.chan).map (px Y X) = k
          · rw [if_pos ((htc Y X).mpr hm), if_pos hm]
          · rw [if_neg (fun h => hm ((htc Y X).mp h)), if_neg hm]
      generalize flat p.W (p.chan + 1) (fun Y X c => if c < p.chan then shown p.color p.d (px Y X c) else top p.d) = F at hall halpha hres
      by_cases h16 : p.d = 16
      · have htop : top p.d = 65535 := by rw [top, if_pos h16]
        rw [if_pos h16] at m2 ⊢
        rw [if_pos h16]
        rw [hk.tc16 k hcl h3 h16]
        obtain ⟨m', t1, t2, t3⟩ := transparency16_ok (tc := k) (by omega) (by omega) m2 (by rw [h16] at hall; exact hall) (by rw [← htop]; exact halpha)
        rw [t1, Outcome.bind_ok, if_neg (by rw [hpn]; decide)]
        refine ⟨m', by rw [hchs], by rw [t2, m2, hchs], ?_⟩
        rw [hchs]
        refine hres m' k (fun Y X => ?_) (by rw [htop, h16]; exact t3)
        rw [show (fun c => shown p.color p.d (px Y X c)) = px Y X from funext fun c => by rw [shown, if_neg (by omega)]]
      · have htop : top p.d = 255 := by rw [top, if_neg h16]
        rw [if_neg h16] at m2 ⊢
        rw [if_neg h16]
        rw [hk.tc k hcl h3 h16]
        rw [Nat.mul_one] at m2 ⊢
        obtain ⟨m', t1, t2, t3⟩ := transparency_ok (tc := k.map fun v => v % 256 * (depthScale.getD p.d 0) % 256) h16 (by omega)
          (by rw [List.length_map]; omega) m2 hall (by rw [← htop]; exact halpha)
        rw [t1, Outcome.bind_ok, if_neg (by rw [hpn]; decide)]
        refine ⟨m', by rw [hchs], by rw [t2, m2, hchs], ?_⟩
        rw [hchs]
        exact hres m' _ (fun Y X => key_iff hp hkv h16 h02 (px Y X) p.chan) (by rw [htop]; exact t3)

end Verif.Png
