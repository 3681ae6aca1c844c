import Verif.Inflate.Whole

/-!
# Properties of the zlib decoder

C141: codes.  C142: what a stream is decoded to.  C143: undefined behaviour and endless loops.
-/

namespace Verif.Inflate

variable {inp : List UInt8}

/-! ## Lemmas -/

/-- a stream of the format is decoded if there is room -/
theorem parse_complete {lax header : Bool} {out : List UInt8} (h : Inflates lax header inp out) :
    ∃ n₀, ∀ n, n₀ ≤ n → ∀ {cap room : Nat} {exp : Bool}, (exp = true → 1 ≤ cap ∧ cap < 2 ^ 31) →
      Can { rest := inp, cap := cap, exp := exp, room := room } out.length →
      ∃ z', parseZlib n header { rest := inp, cap := cap, exp := exp, room := room } = .ok z' ∧ z'.out = out := by
  have hi := inflates_lax h
  rw [inflates_eq] at h
  obtain ⟨hh, q, hb⟩ := h
  refine ⟨q + 8 * inp.length + 1, fun n hn cap room exp hcap hcan => ?_⟩
  rcases parse_cases (inp := inp) n header (cap := cap) (room := room) (exp := exp) hcap with
    ⟨z', e1, e2, _⟩ | ⟨e, e1, e2⟩ | ⟨e1, e2⟩ | ⟨e1, e2⟩
  · exact ⟨z', e1, inflates_det e2 hi⟩
  · exact absurd (Nat.le_refl _) (e2 out hi _ hcan)
  · exfalso
    rcases e2 with ⟨lit, dist, r, o, g1, g2⟩ | ⟨g1, o, g2, g3⟩
    · rcases meets_blocks hb g1 with ⟨q', o', g3⟩ | g3
      · exact void_not g2 g3
      · exact void_not_end g2 g3
    · have := writes_blocks hb g2
      rcases hcan with ⟨c1, _⟩ | ⟨_, _, c3, _⟩
      · simp only at c1; rw [c1] at g1; cases g1
      · omega
  · exfalso
    rcases e2 with ⟨j, p', o1, lit, dist, s, r, o, g1, g2, g3, _⟩ | ⟨p', o, g1⟩
    · have := block_symbols (chain_blocks hb g1) g2 g3
      omega
    · have := chain_bound g1
      omega

/-- a block of compressed data is read with tables for its codes -/
theorem block_opens {p s : Nat} {lit dist : List Nat} (ho : Opens inp p lit dist s) (n : Nat) {z : ZBuf} (hr : Rep inp z (p + 2)) :
    ∃ hl hd y, block n (lsb inp p 2) z = huffmanBlock hl hd n y ∧ Codes lit dist hl hd ∧ Rep inp y s ∧ dst y = dst z := by
  have ht := opens_type ho
  rw [block, if_neg (by omega), if_neg (by omega)]
  split
  · rename_i h1
    obtain ⟨hl, a1, a2⟩ := build_ok (ls := fixedLit) (by decide +kernel) fits_lit
    obtain ⟨hd, b1, b2⟩ := build_ok (ls := fixedDist) (by decide +kernel) fits_dist
    rw [default_lit, default_dist, a1, Outcome.bind_ok, b1, Outcome.bind_ok]
    obtain ⟨rfl, rfl, rfl⟩ := opens_det ho (.fixed h1)
    exact ⟨hl, hd, z, rfl, ⟨fits_lit, by decide +kernel, a2, fits_dist, by decide +kernel, b2⟩, hr, rfl⟩
  · rename_i h1
    rcases computeCodes_cases (by omega) hr with ⟨hl, hd, y, lit', dist', s', e1, e2, e3, e4, e5⟩ | ⟨e, e1, e2⟩
    · obtain ⟨rfl, rfl, rfl⟩ := opens_det ho e2
      rw [e1, Outcome.bind_ok]
      exact ⟨hl, hd, y, rfl, e3, e4, e5⟩
    · exact absurd ho (e2 _ _ _)

/-- symbols after symbols, with no end -/
theorem forever {lit dist : List Nat} {hl hd : Huff} (hc : Codes lit dist hl hd) {P : Nat → List UInt8 → Prop}
    (hP : ∀ p out, P p out → ∃ q out', Step true inp lit dist p out q out' ∧ P q out') : ∀ (n : Nat) {z : ZBuf} {p : Nat}, Rep inp z p →
    z.exp = true → 1 ≤ z.cap → z.cap < 2 ^ 31 → 2 ^ 31 ≤ z.room → P p z.out →
    huffmanBlock hl hd n z = .ub ∨ huffmanBlock hl hd n z = .diverges := by
  intro n
  induction n with
  | zero => intros; exact .inr rfl
  | succ n ih =>
    intro z p hr he h1 h2 h3 hp
    obtain ⟨q, o, s1, s2⟩ := hP p z.out hp
    rcases huffman_round hc hr (fun _ => ⟨h1, h2⟩) n with ⟨z', q', out', e1, e2, e3, e4, e5, e6, e7, e8, e9, e10, e11⟩ | ⟨z', e1, e2, _⟩ | ⟨e, e1, e2⟩ | ⟨e1, _⟩
    · obtain ⟨rfl, rfl⟩ := step_det s1 e2
      rw [e1]
      obtain ⟨c1, c2⟩ := e9 he
      exact ih e3 (e5.trans he) c1 c2 (by rw [e6]; exact h3) (by rw [e4]; exact s2)
    · exact absurd e2 (step_not_end s1)
    · exfalso
      rcases e2 with ⟨g1, _⟩ | ⟨_, _, _, g1, _⟩
      · exact g1 _ _ s1
      · have := g1 he; omega
    · exact .inl e1

theorem steps_keep {lit dist : List Nat} {P : Nat → List UInt8 → Prop}
    (hP : ∀ p out, P p out → ∃ q out', Step true inp lit dist p out q out' ∧ P q out') {n p r : Nat} {out o : List UInt8}
    (h : Steps true inp lit dist n p out r o) (hp : P p out) : P r o := by
  induction h with
  | refl => exact hp
  | step h _ ih =>
    obtain ⟨q, o, s1, s2⟩ := hP _ _ hp
    obtain ⟨rfl, rfl⟩ := step_det s1 h
    exact ih s2

/-- a stream whose first block has no end -/
theorem endless {lit dist : List Nat} {s : Nat} (ho : Opens inp 1 lit dist s) {P : Nat → List UInt8 → Prop}
    (hP : ∀ p out, P p out → ∃ q out', Step true inp lit dist p out q out' ∧ P q out') (hs : P s []) (n : Nat) {room initial : Nat}
    (h1 : 1 ≤ initial) (h2 : initial < 2 ^ 31) (h3 : 2 ^ 31 ≤ room) :
    (decodeMalloc n room false initial inp = .ub ∧ ∃ p out, P p out ∧ 2 ^ 30 < out.length) ∨
    (decodeMalloc n room false initial inp = .diverges ∧ ∃ p out, Steps true inp lit dist (n - 1) s [] p out ∧ out.length ≤ 2 ^ 31) := by
  rw [decodeMalloc, if_neg (by omega), parseZlib]
  simp only [Bool.false_eq_true, if_false, Outcome.bind_ok]
  match n with
  | 0 => exact .inr ⟨by rw [blocks, Outcome.bind_diverges], s, [], .refl, by simp⟩
  | n + 1 =>
    rw [blocks]
    have hr : Rep inp { rest := inp, cap := initial, exp := true, room := room } 0 := ⟨rfl, by simp, rfl, by simp⟩
    obtain ⟨y, a1, a2, _, a3⟩ := receive_ok (n := 1) hr (by decide)
    rw [a1, Outcome.bind_ok]
    simp only
    obtain ⟨w, b1, b2, b3, b4⟩ := receive_ok (n := 2) a2 (by decide)
    rw [b1, Outcome.bind_ok]
    simp only
    obtain ⟨hl, hd, x, c1, c2, c3, c4⟩ := block_opens (p := 1) ho (n + 1) b2
    have hdst := c4.trans (b4.trans a3)
    simp only [dst, Prod.mk.injEq] at hdst
    obtain ⟨d1, d2, d3, d4⟩ := hdst
    simp only [Nat.zero_add]
    rw [c1]
    have hcap : x.exp = true → 1 ≤ x.cap ∧ x.cap < 2 ^ 31 := fun _ => by rw [d2]; exact ⟨h1, h2⟩
    have hfe := forever c2 hP (n + 1) c3 d3 (by rw [d2]; exact h1) (by rw [d2]; exact h2) (by rw [d4]; exact h3) (by rw [d1]; exact hs)
    rcases huffman_cases c2 (n + 1) c3 hcap with ⟨z', q, e1, _⟩ | ⟨e, e1, _⟩ | ⟨e1, k, r, o, e2, e3⟩ | ⟨e1, r, o, e2, e3⟩
    · rw [e1] at hfe; rcases hfe with h | h <;> cases h
    · rw [e1] at hfe; rcases hfe with h | h <;> cases h
    · left
      rw [e1, Outcome.bind_ub, Outcome.bind_ub]
      rw [d1] at e2
      have hp := steps_keep hP e2 hs
      refine ⟨rfl, r, o, hp, ?_⟩
      rcases e3 with e3 | ⟨_, e3⟩
      · obtain ⟨_, _, h, _⟩ := hP _ _ hp
        exact absurd h (fun h => void_not e3 h)
      · exact e3
    · right
      rw [e1, Outcome.bind_diverges, Outcome.bind_diverges]
      rw [d1] at e2
      cases e2 with
      | step g1 g2 =>
        have hm : most x = 2 ^ 31 := by rw [most, d3]; rfl
        have hlen := e3 (by rw [d1]; simp)
        rw [hm] at hlen
        -- one symbol less
        have cut : ∀ {n p out r o}, Steps true inp lit dist (n + 1) p out r o → ∃ r' o', Steps true inp lit dist n p out r' o' ∧ o'.length ≤ o.length := by
          intro n
          induction n with
          | zero =>
            intro p out r o h
            exact ⟨p, out, .refl, steps_length h⟩
          | succ n ih =>
            intro p out r o h
            cases h with
            | step h1 h2 =>
              obtain ⟨r', o', i1, i2⟩ := ih h2
              exact ⟨r', o', .step h1 i1, i2⟩
        obtain ⟨r', o', i1, i2⟩ := cut (Steps.step g1 g2)
        exact ⟨rfl, r', o', i1, by omega⟩

/-- a block with bytes as they are (RFC 1951, 3.2.4) -/
def storedOne (last : Bool) (c : List UInt8) : List UInt8 :=
  [if last then 1 else 0, UInt8.ofNat (c.length % 256), UInt8.ofNat (c.length / 256),
    UInt8.ofNat ((65535 - c.length) % 256), UInt8.ofNat ((65535 - c.length) / 256)] ++ c

/-- pieces as they are, one block for each -/
def stored : List (List UInt8) → List UInt8
  | [] => []
  | [c] => storedOne true c
  | c :: d :: cs => storedOne false c ++ stored (d :: cs)

theorem stored_block (pre rest c : List UInt8) (last : Bool) (hc : c.length ≤ 65535) (out : List UInt8) :
    bitAt (pre ++ (storedOne last c ++ rest)) (8 * pre.length) = (if last then 1 else 0) ∧
    Block false (pre ++ (storedOne last c ++ rest)) (8 * pre.length + 1) out (8 * (pre ++ storedOne last c).length) (out ++ c) := by
  generalize hi : pre ++ (storedOne last c ++ rest) = inp
  have at' : ∀ j, inp[pre.length + j]? = (storedOne last c ++ rest)[j]? := by
    intro j
    rw [← hi, List.getElem?_append_right (by omega), Nat.add_sub_cancel_left]
  have b0 : inp[pre.length]?.getD 0 = if last then 1 else 0 := by
    have := at' 0
    rw [Nat.add_zero] at this
    rw [this]
    simp [storedOne]
  have b1 : inp[pre.length + 1]?.getD 0 = UInt8.ofNat (c.length % 256) := by rw [at' 1]; simp [storedOne]
  have b2 : inp[pre.length + 1 + 1]?.getD 0 = UInt8.ofNat (c.length / 256) := by rw [show pre.length + 1 + 1 = pre.length + 2 from rfl, at' 2]; simp [storedOne]
  have b3 : inp[pre.length + 3]?.getD 0 = UInt8.ofNat ((65535 - c.length) % 256) := by rw [at' 3]; simp [storedOne]
  have b4 : inp[pre.length + 3 + 1]?.getD 0 = UInt8.ofNat ((65535 - c.length) / 256) := by rw [show pre.length + 3 + 1 = pre.length + 4 from rfl, at' 4]; simp [storedOne]
  have bits : ∀ j, j < 8 → bitAt inp (8 * pre.length + j) = (if last then 1 else 0 : UInt8).toNat / 2 ^ j % 2 := by
    intro j hj
    rw [bitAt, show (8 * pre.length + j) / 8 = pre.length by omega, show (8 * pre.length + j) % 8 = j by omega, b0]
  have n256 : ∀ n, n < 256 → (UInt8.ofNat n).toNat = n := fun n h => by rw [UInt8.toNat_ofNat']; exact Nat.mod_eq_of_lt h
  have hlen : lsb inp (8 * (pre.length + 1)) 16 = c.length := by
    rw [lsb_word, b1, b2, n256 _ (by omega), n256 _ (by omega)]
    omega
  have hnlen : lsb inp (8 * (pre.length + 1) + 16) 16 = 65535 - c.length := by
    rw [show 8 * (pre.length + 1) + 16 = 8 * (pre.length + 3) by omega, lsb_word, b3, b4, n256 _ (by omega), n256 _ (by omega)]
    omega
  have htot : inp.length = pre.length + (5 + c.length) + rest.length := by rw [← hi]; simp [storedOne]; omega
  constructor
  · have := bits 0 (by decide)
    rw [Nat.add_zero] at this
    rw [this]
    cases last <;> rfl
  · have := Block.stored (lax := false) (inp := inp) (p := 8 * pre.length + 1) (out := out) (o := pre.length + 1) (len := c.length) ?_ (by omega) (by omega)
      hlen.symm hnlen (by omega)
    · have e1 : 8 * (pre ++ storedOne last c).length = 8 * (pre.length + 1 + 4 + c.length) := by simp [storedOne]; omega
      have e2 : (inp.drop (pre.length + 1 + 4)).take c.length = c := by
        rw [← hi, show pre.length + 1 + 4 = pre.length + 5 from rfl, ← List.drop_drop, List.drop_left, storedOne]
        simp
      rw [e1]
      rw [e2] at this
      exact this
    · rw [lsb, lsb, lsb, show 8 * pre.length + 1 + 1 = 8 * pre.length + 2 from rfl, Nat.add_zero, bits 1 (by decide), bits 2 (by decide)]
      cases last <;> rfl

theorem stored_blocks : ∀ (cs : List (List UInt8)), cs ≠ [] → (∀ c ∈ cs, c.length ≤ 65535) → ∀ (pre out : List UInt8),
    Blocks false (pre ++ stored cs) (8 * pre.length) out (8 * (pre ++ stored cs).length) (out ++ cs.flatten) := by
  intro cs
  induction cs with
  | nil => intro h; exact absurd rfl h
  | cons c cs ih =>
    intro _ hall pre out
    cases cs with
    | nil =>
      have := stored_block pre [] c true (hall c (by simp)) out
      rw [List.append_nil] at this
      rw [stored]
      simp only [List.flatten_cons, List.flatten_nil, List.append_nil]
      exact .last this.1 this.2
    | cons d cs =>
      have := stored_block pre (stored (d :: cs)) c false (hall c (by simp)) out
      have h2 := ih (by simp) (fun x hx => hall x (List.mem_cons_of_mem _ hx)) (pre ++ storedOne false c) (out ++ c)
      rw [List.append_assoc] at h2
      rw [stored]
      refine .more this.1 this.2 ?_
      rw [List.flatten_cons, ← List.append_assoc out]
      exact h2

/-! ## C141: codes -/

/-- **C141** (what holds) Lengths of codes are accepted exactly if codes of these lengths exist: all together they are no more
than everything.  Lengths that need more are an error. -/
theorem C141_accepts_iff (ls : List Nat) (hn : ls.length ≤ 288) (h15 : ∀ l ∈ ls, l ≤ 15) :
    ((∃ h, build ls = .ok h) ↔ Fits ls) ∧ (¬ Fits ls → ∃ e, build ls = .throws e) := by
  refine ⟨⟨fun ⟨h, hh⟩ => ?_, fun hf => ?_⟩, build_throws h15⟩
  · by_contra hf
    obtain ⟨e, he⟩ := build_throws h15 hf
    rw [he] at hh
    cases hh
  · obtain ⟨h, h1, _⟩ := build_ok hn hf
    exact ⟨h, h1⟩

example : Fits [1, 2, 3, 3] ∧ Fits [1] ∧ ¬ Fits [1, 1, 2] := by decide

/-- **C141** (what holds) With the tables of some lengths, reading a symbol gives exactly the symbol whose code - by the rule of
the format - is at the place, and goes on behind that code; if there is none, that is reported.  Neither undefined behaviour nor
a failed assertion comes of it, whatever the bits are. -/
theorem C141_decodes (ls : List Nat) (hn : ls.length ≤ 288) (hf : Fits ls) (h : Huff) (hb : build ls = .ok h) (z : ZBuf) (p : Nat)
    (hr : Rep inp z p) : ∃ r z', decode h z = .ok (r, z') ∧ z'.out = z.out ∧
      (∀ i, r = some i ↔ SymAt inp ls p i) ∧ ∀ i, r = some i → Rep inp z' (p + lenOf ls i) := by
  obtain ⟨h', h1, h2⟩ := build_ok hn hf
  rw [hb] at h1
  cases h1
  obtain ⟨r, z', d1, d2, d3⟩ := decode_ok hf hn h2 hr
  simp only [dst, Prod.mk.injEq] at d2
  refine ⟨r, z', d1, d2.1, fun i => ?_, ?_⟩
  · cases r with
    | none => exact ⟨fun h => (by cases h), fun h => absurd h (d3 i)⟩
    | some j =>
      constructor
      · intro h
        cases h
        exact d3.1
      · intro h
        rw [sym_unique h d3.1]
  · intro i hi
    subst hi
    exact d3.2

example : ∃ h, build [2, 1, 3, 3] = .ok h ∧ SymAt [0b00000110] [2, 1, 3, 3] 1 2 :=
  ⟨_, (build_ok (by decide) (by decide)).choose_spec.1, by decide⟩

/-- **C141** (what holds) No code is the beginning of another: at no place there are two symbols. -/
theorem C141_unique (ls : List Nat) (p i j : Nat) (hi : SymAt inp ls p i) (hj : SymAt inp ls p j) : i = j := sym_unique hi hj

/-- **C141** (what holds) If the codes take everything, there is a symbol at every place. -/
theorem C141_complete (ls : List Nat) (h15 : ∀ l ∈ ls, l ≤ 15) (hs : (ls.map fun l => if l = 0 then 0 else 2 ^ (15 - l)).sum = 2 ^ 15)
    (p : Nat) : ∃ i, SymAt inp ls p i := by
  rw [kraft_sum ls h15] at hs
  obtain ⟨t, ht, hmin⟩ : ∃ t, (0 < t ∧ msb inp p t < firstOf (cntOf ls) t + cntOf ls t) ∧
      ∀ s, 0 < s → s < t → firstOf (cntOf ls) s + cntOf ls s ≤ msb inp p s := by
    have ex : ∃ t, 0 < t ∧ msb inp p t < firstOf (cntOf ls) t + cntOf ls t := ⟨15, by decide, by rw [hs]; exact msb_lt _ _⟩
    classical
    refine ⟨Nat.find ex, Nat.find_spec ex, fun s h0 h => ?_⟩
    have := Nat.find_min ex h
    by_contra hc
    exact this ⟨h0, by omega⟩
  obtain ⟨i, _, hi⟩ := sym_exists ht.1 ht.2 hmin
  exact ⟨i, hi⟩

example : ((fixedLit.map fun l => if l = 0 then 0 else 2 ^ (15 - l)).sum = 2 ^ 15) ∧ ∀ l ∈ fixedLit, l ≤ 15 := by decide +kernel

/-! ## C142: what a stream is decoded to -/

/-- **C142** (what holds) Into a buffer of a given size, exactly the streams that stand for bytes, no more than fit, are decoded,
and to these bytes. -/
theorem C142_buffer_iff (header : Bool) (olen : Nat) (inp out : List UInt8) :
    (∃ n, decodeBuffer n header olen inp = .ok out) ↔ Inflates true header inp out ∧ out.length ≤ olen := by
  constructor
  · rintro ⟨n, h⟩
    rw [decodeBuffer] at h
    rcases parse_cases (inp := inp) n header (cap := olen) (room := 0) (exp := false) (by simp) with ⟨z', e1, e2, e3, _⟩ | ⟨e, e1, _⟩ | ⟨e1, _⟩ | ⟨e1, _⟩
    · rw [e1, Outcome.bind_ok] at h
      cases h
      exact ⟨e2, e3 rfl⟩
    all_goals rw [e1] at h; cases h
  · rintro ⟨h1, h2⟩
    obtain ⟨n₀, hn⟩ := parse_complete h1
    obtain ⟨z', e1, e2⟩ := hn n₀ (Nat.le_refl _) (cap := olen) (room := 0) (exp := false) (by simp) (.inl ⟨rfl, h2⟩)
    exact ⟨n₀, by rw [decodeBuffer, e1, Outcome.bind_ok, e2]⟩

/-- **C142** (what holds) The same for a buffer that grows: what is given back is what the stream stands for, and streams for at
most 2^30 bytes are decoded if there is memory for twice that. -/
theorem C142_malloc_iff (header : Bool) (room initial : Nat) (h1 : 1 ≤ initial) (h2 : initial < 2 ^ 31) (h3 : initial ≤ room)
    (inp out : List UInt8) (h4 : out.length ≤ 2 ^ 30) (h5 : 2 * out.length ≤ room) :
    (∃ n, decodeMalloc n room header initial inp = .ok out) ↔ Inflates true header inp out := by
  constructor
  · rintro ⟨n, h⟩
    rw [decodeMalloc, if_neg (by omega)] at h
    rcases parse_cases (inp := inp) n header (cap := initial) (room := room) (exp := true) (fun _ => ⟨h1, h2⟩) with
      ⟨z', e1, e2, _⟩ | ⟨e, e1, _⟩ | ⟨e1, _⟩ | ⟨e1, _⟩
    · rw [e1, Outcome.bind_ok] at h
      cases h
      exact e2
    all_goals rw [e1] at h; cases h
  · intro h
    obtain ⟨n₀, hn⟩ := parse_complete h
    obtain ⟨z', e1, e2⟩ := hn n₀ (Nat.le_refl _) (cap := initial) (room := room) (exp := true) (fun _ => ⟨h1, h2⟩) (.inr ⟨rfl, h1, h4, h5⟩)
    exact ⟨n₀, by rw [decodeMalloc, if_neg (by omega), e1, Outcome.bind_ok, e2]⟩

set_option maxRecDepth 100000 in
/-- "hello hello hello hello" as zlib compresses it -/
example : decodeMalloc 100 100000 true 10 [120, 156, 203, 72, 205, 201, 201, 87, 200, 64, 39, 1, 104, 3, 8, 177] =
    .ok "hello hello hello hello".toUTF8.data.toList := by decide +kernel

/-- **C142** (what holds) Every proper stream - nothing in it that must not occur, not cut off - is decoded to the bytes it stands
for, by both functions, from some number of rounds on. -/
theorem C142_proper (header : Bool) (inp out : List UInt8) (h : Proper header inp out) :
    ∃ n₀, ∀ n, n₀ ≤ n → (∀ olen, out.length ≤ olen → decodeBuffer n header olen inp = .ok out) ∧
      ∀ room initial, 1 ≤ initial → initial < 2 ^ 31 → initial ≤ room → out.length ≤ 2 ^ 30 → 2 * out.length ≤ room →
        decodeMalloc n room header initial inp = .ok out := by
  have hi : Inflates false header inp out := by
    unfold Proper at h
    unfold Inflates
    cases header
    · obtain ⟨q, a, _⟩ := h; exact ⟨q, a⟩
    · obtain ⟨hh, q, a, _⟩ := h; exact ⟨hh, q, a⟩
  obtain ⟨n₀, hn⟩ := parse_complete hi
  refine ⟨n₀, fun n hle => ⟨fun olen ho => ?_, fun room initial h1 h2 h3 h4 h5 => ?_⟩⟩
  · obtain ⟨z', e1, e2⟩ := hn n hle (cap := olen) (room := 0) (exp := false) (by simp) (.inl ⟨rfl, ho⟩)
    rw [decodeBuffer, e1, Outcome.bind_ok, e2]
  · obtain ⟨z', e1, e2⟩ := hn n hle (cap := initial) (room := room) (exp := true) (fun _ => ⟨h1, h2⟩) (.inr ⟨rfl, h1, h4, h5⟩)
    rw [decodeMalloc, if_neg (by omega), e1, Outcome.bind_ok, e2]

/-- **C142** (what holds) Whatever the bytes are, cut into pieces of at most 65535: stored as they are, one block for each
piece, they are a proper stream, which is decoded to them. -/
theorem C142_stored (cs : List (List UInt8)) (hcs : cs ≠ []) (hall : ∀ c ∈ cs, c.length ≤ 65535) :
    Proper false (stored cs) cs.flatten ∧
    ∃ n₀, ∀ n, n₀ ≤ n → ∀ olen, cs.flatten.length ≤ olen → decodeBuffer n false olen (stored cs) = .ok cs.flatten := by
  have hp : Proper false (stored cs) cs.flatten := by
    have := stored_blocks cs hcs hall [] []
    exact ⟨_, this, Nat.le_refl _⟩
  refine ⟨hp, ?_⟩
  obtain ⟨n₀, hn⟩ := C142_proper false _ _ hp
  exact ⟨n₀, fun n hle => (hn n hle).1⟩

example : stored [[97, 98], [99]] = [0, 2, 0, 253, 255, 97, 98, 1, 1, 0, 254, 255, 99] := by decide

/-- **C142** (what holds) A stream stands for one sequence of bytes only. -/
theorem C142_unique (header : Bool) (lax lax' : Bool) (inp out out' : List UInt8) (h : Inflates lax header inp out)
    (h' : Inflates lax' header inp out') : out = out' := inflates_det h h'

/-- the only bytes that `stored [[97, 98]]` stands for -/
example (out : List UInt8) (h : Inflates true false (stored [[97, 98]]) out) : out = [97, 98] :=
  have ⟨q, a, _⟩ := (C142_stored [[97, 98]] (by decide) (by decide)).1
  C142_unique false true false _ _ _ h ⟨q, a⟩

/-- some symbol that must not occur is met -/
def Odd (inp : List UInt8) (p : Nat) : Prop :=
  ∃ lit dist r out, Meets inp p [] lit dist r out ∧ (SymAt inp lit r 286 ∨ SymAt inp lit r 287)

/-- **C142** (what holds) What is accepted beyond the format is only this: the symbols 286 and 287, which must not occur, are
taken for copies of no bytes. -/
theorem C142_strict_iff (header : Bool) (inp out : List UInt8) :
    Inflates false header inp out ↔ Inflates true header inp out ∧ ¬ Odd inp (start header) := by
  constructor
  · intro h
    refine ⟨inflates_lax h, ?_⟩
    rintro ⟨lit, dist, r, o, hm, hs⟩
    rw [inflates_eq] at h
    obtain ⟨_, q, hb⟩ := h
    rcases meets_blocks hb hm with ⟨q', o', g⟩ | g
    · cases g with
      | byte a1 a2 => rcases hs with hs | hs <;> have := sym_unique a2 hs <;> omega
      | copy a1 a2 => rcases hs with hs | hs <;> have := sym_unique a2 hs <;> omega
      | nothing a => cases a
      | nowhere a => cases a
    · rcases hs with hs | hs <;> have := sym_unique g hs <;> omega
  · rintro ⟨h, hodd⟩
    rw [inflates_eq] at h ⊢
    obtain ⟨hh, q, hb⟩ := h
    refine ⟨hh, q, ?_⟩
    -- steps of a block
    have steps : ∀ {lit dist n p out r o}, Steps true inp lit dist n p out r o →
        (∀ m r' o', Steps true inp lit dist m p out r' o' → ¬ SymAt inp lit r' 286 ∧ ¬ SymAt inp lit r' 287) → Steps false inp lit dist n p out r o := by
      intro lit dist n p out r o hs
      induction hs with
      | refl => intro _; exact .refl
      | step h1 _ ih =>
        intro hall
        obtain ⟨n1, n2⟩ := hall 0 _ _ .refl
        refine .step ?_ (ih fun m r' o' hm => hall (m + 1) r' o' (.step h1 hm))
        cases h1 with
        | byte a1 a2 => exact .byte a1 a2
        | copy a1 a2 a3 a4 a5 => exact .copy a1 a2 a3 a4 a5
        | nothing _ a a2 => rcases a with rfl | rfl <;> contradiction
        | nowhere _ a a2 => rcases a with rfl | rfl <;> contradiction
    have blk : ∀ {p out q o}, Block true inp (p + 1) out q o →
        (∀ lit dist r o', Meets inp p out lit dist r o' → ¬ SymAt inp lit r 286 ∧ ¬ SymAt inp lit r 287) → Block false inp (p + 1) out q o := by
      intro p out q o hb hall
      cases hb with
      | stored a1 a2 a3 a4 a5 a6 => exact .stored a1 a2 a3 a4 a5 a6
      | data a1 a2 =>
        obtain ⟨n, r, b1, b2, b3⟩ := a2
        exact .data a1 ⟨n, r, steps b1 (fun m r' o' hm => hall _ _ r' o' (.here a1 hm)), b2, b3⟩
    have all : ∀ {p out q o}, Blocks true inp p out q o →
        (∀ lit dist r o', Meets inp p out lit dist r o' → ¬ SymAt inp lit r 286 ∧ ¬ SymAt inp lit r 287) → Blocks false inp p out q o := by
      intro p out q o hb
      induction hb with
      | last a b => intro hall; exact .last a (blk b hall)
      | more a b _ ih => intro hall; exact .more a (blk b hall) (ih fun lit dist r o' hm => hall lit dist r o' (.later a b hm))
    exact all hb fun lit dist r o hm => ⟨fun hs => hodd ⟨lit, dist, r, o, hm, .inl hs⟩, fun hs => hodd ⟨lit, dist, r, o, hm, .inr hs⟩⟩

set_option maxRecDepth 100000 in
/-- **C142** (what does not hold) Symbols that must not occur are no error: here `a` is followed by the symbol 286, and the
stream is decoded to `a`. -/
theorem C142_odd_fails : decodeBuffer 10 false 10 [75, 28, 3, 0] = .ok [97] ∧ ¬ ∃ out, Inflates false false [75, 28, 3, 0] out := by
  refine ⟨by decide +kernel, ?_⟩
  rintro ⟨out, h⟩
  refine ((C142_strict_iff _ _ _).mp h).2 ⟨fixedLit, fixedDist, 11, [97], .here (.fixed (by decide)) (.step (n := 0) (q := 11) (out' := [97]) ?_ .refl), .inl (by decide +kernel)⟩
  exact Step.byte (inp := [75, 28, 3, 0]) (lit := fixedLit) (dist := fixedDist) (p := 3) (out := []) (c := 97) (by decide) (by decide +kernel)

set_option maxRecDepth 100000 in
/-- **C142** (what does not hold) A stream that is cut off is no error: bits behind the end are taken to be zeros.  Here there is
only the beginning of a block, and not all of the code for its end, and no bytes are decoded without complaint. -/
theorem C142_cut_fails : decodeBuffer 10 false 10 [3] = .ok [] ∧ ¬ ∃ out, Proper false [3] out := by
  refine ⟨by decide +kernel, ?_⟩
  rintro ⟨out, q, h1, h2⟩
  have hb : Blocks true [3] 0 [] 10 [] := .last (by decide) (.data (.fixed (by decide)) ⟨0, 3, .refl, by decide +kernel, by decide +kernel⟩)
  have := (blocks_det h1 hb).1
  simp only [List.length_cons, List.length_nil] at h2
  omega

set_option maxRecDepth 100000 in
/-- **C142** (what does not hold) The check sum at the end of a stream is not looked at: here is the stream of no bytes with the
right one and with a wrong one. -/
theorem C142_checksum_fails : decodeBuffer 10 true 10 [120, 1, 1, 0, 0, 255, 255, 0, 0, 0, 1] = .ok [] ∧
    decodeBuffer 10 true 10 [120, 1, 1, 0, 0, 255, 255, 9, 9, 9, 9] = .ok [] := by
  constructor <;> decide +kernel

/-! ## C143: undefined behaviour and endless loops -/

/-- **C143** (what holds) Decoding into a buffer of a given size: whatever the stream is, no assertion fails, and no byte is
written behind the buffer; the only undefined behaviour is that of a copy from distance 0. -/
theorem C143_buffer (n : Nat) (header : Bool) (olen : Nat) (inp : List UInt8) :
    (∃ out, decodeBuffer n header olen inp = .ok out ∧ out.length ≤ olen) ∨ (∃ e, decodeBuffer n header olen inp = .throws e) ∨
    decodeBuffer n header olen inp = .diverges ∨
    (decodeBuffer n header olen inp = .ub ∧ ∃ lit dist r out, Meets inp (start header) [] lit dist r out ∧ Void inp lit dist r) := by
  rw [decodeBuffer]
  rcases parse_cases (inp := inp) n header (cap := olen) (room := 0) (exp := false) (by simp) with ⟨z', e1, e2, e3, _⟩ | ⟨e, e1, _⟩ | ⟨e1, e2⟩ | ⟨e1, _⟩
  · rw [e1]; exact .inl ⟨z'.out, rfl, e3 rfl⟩
  · rw [e1]; exact .inr (.inl ⟨e, rfl⟩)
  · rw [e1]
    refine .inr (.inr (.inr ⟨rfl, ?_⟩))
    rcases e2 with h | ⟨h, _⟩
    · exact h
    · cases h
  · rw [e1]; exact .inr (.inr (.inl rfl))

example : decodeBuffer 100 true 3 [120, 156, 203, 72, 205, 201, 201, 87, 200, 64, 39, 1, 104, 3, 8, 177] = .throws "output buffer limit" := by decide +kernel

/-- **C143** (what holds) The same for a buffer that grows, where the size can also become too great: this is when more than 2^30
bytes have been decoded. -/
theorem C143_malloc (n room : Nat) (header : Bool) (initial : Nat) (h1 : 1 ≤ initial) (h2 : initial < 2 ^ 31) (inp : List UInt8) :
    (∃ out, decodeMalloc n room header initial inp = .ok out ∧ out.length < 2 ^ 31) ∨ (∃ e, decodeMalloc n room header initial inp = .throws e) ∨
    decodeMalloc n room header initial inp = .diverges ∨
    (decodeMalloc n room header initial inp = .ub ∧ ((∃ lit dist r out, Meets inp (start header) [] lit dist r out ∧ Void inp lit dist r) ∨
      ∃ out, Writes inp (start header) [] out ∧ 2 ^ 30 < out.length)) := by
  rw [decodeMalloc]
  split
  · exact .inr (.inl ⟨_, rfl⟩)
  · rcases parse_cases (inp := inp) n header (cap := initial) (room := room) (exp := true) (fun _ => ⟨h1, h2⟩) with
      ⟨z', e1, e2, _, e3⟩ | ⟨e, e1, _⟩ | ⟨e1, e2⟩ | ⟨e1, _⟩
    · rw [e1]; exact .inl ⟨z'.out, rfl, e3 rfl⟩
    · rw [e1]; exact .inr (.inl ⟨e, rfl⟩)
    · rw [e1]
      refine .inr (.inr (.inr ⟨rfl, ?_⟩))
      rcases e2 with h | ⟨_, h⟩
      · exact .inl h
      · exact .inr h
    · rw [e1]; exact .inr (.inr (.inl rfl))

/-- symbols none of which is 286 or 287 bring at least a byte each -/
theorem steps_grow {lit dist : List Nat} {n p r : Nat} {out o : List UInt8} (h : Steps true inp lit dist n p out r o)
    (hall : ∀ m r' o', Steps true inp lit dist m p out r' o' → ¬ SymAt inp lit r' 286 ∧ ¬ SymAt inp lit r' 287) : out.length + n ≤ o.length := by
  induction h with
  | refl => omega
  | step h1 _ ih =>
    obtain ⟨n1, n2⟩ := hall 0 _ _ .refl
    have := ih fun m r' o' hm => hall (m + 1) r' o' (.step h1 hm)
    cases h1 with
    | byte a1 a2 => rw [List.length_append, List.length_singleton] at this; omega
    | copy a1 a2 a3 a4 a5 =>
      rw [copied_length] at this
      have hb : ∀ l, l < 29 → 1 ≤ lenBase l := by decide
      have := hb _ a1
      omega
    | nothing _ a a2 => rcases a with rfl | rfl <;> contradiction
    | nowhere _ a a2 => rcases a with rfl | rfl <;> contradiction

/-- chains of blocks and a place in the next one -/
theorem chain_meets {j p p' : Nat} {out o o' : List UInt8} {lit dist : List Nat} {r : Nat} (hc : Chain inp j p out p' o)
    (hm : Meets inp p' o lit dist r o') : Meets inp p out lit dist r o' := by
  induction hc with
  | refl => exact hm
  | step h0 h1 _ ih => exact .later h0 h1 (ih hm)

/-- **C143** (what holds) Decoding ends - after at most as many rounds as there are bits in the stream, and bytes in the buffer -
unless the stream has a symbol 286 or 287. -/
theorem C143_ends_partial (n : Nat) (header : Bool) (olen : Nat) (inp : List UInt8) (hn : 8 * inp.length + olen < n)
    (hd : decodeBuffer n header olen inp = .diverges) : Odd inp (start header) := by
  rw [decodeBuffer] at hd
  rcases parse_cases (inp := inp) n header (cap := olen) (room := 0) (exp := false) (by simp) with ⟨z', e1, _⟩ | ⟨e, e1, _⟩ | ⟨e1, _⟩ | ⟨e1, e2⟩
  · rw [e1] at hd; cases hd
  · rw [e1] at hd; cases hd
  · rw [e1] at hd; cases hd
  · rcases e2 with ⟨j, p', o1, lit, dist, s, r, o, g1, g2, g3, g4⟩ | ⟨p', o, g1⟩
    · by_contra hodd
      have := steps_grow g3 fun m r' o' hm => ⟨fun hs => hodd ⟨lit, dist, r', o', chain_meets g1 (.here g2 hm), .inl hs⟩,
        fun hs => hodd ⟨lit, dist, r', o', chain_meets g1 (.here g2 hm), .inr hs⟩⟩
      simp only [Bool.false_eq_true, if_false] at g4
      omega
    · have := chain_bound g1
      omega

/-- **C143** (what holds) The same for a buffer that grows, which never has more than 2^31 bytes. -/
theorem C143_malloc_ends_partial (n room : Nat) (header : Bool) (initial : Nat) (h1 : 1 ≤ initial) (h2 : initial < 2 ^ 31) (inp : List UInt8)
    (hn : 8 * inp.length + 2 ^ 31 < n) (hd : decodeMalloc n room header initial inp = .diverges) : Odd inp (start header) := by
  rw [decodeMalloc] at hd
  split at hd
  · cases hd
  · rcases parse_cases (inp := inp) n header (cap := initial) (room := room) (exp := true) (fun _ => ⟨h1, h2⟩) with
      ⟨z', e1, _⟩ | ⟨e, e1, _⟩ | ⟨e1, _⟩ | ⟨e1, e2⟩
    · rw [e1] at hd; cases hd
    · rw [e1] at hd; cases hd
    · rw [e1] at hd; cases hd
    · rcases e2 with ⟨j, p', o1, lit, dist, s, r, o, g1, g2, g3, g4⟩ | ⟨p', o, g1⟩
      · by_contra hodd
        have := steps_grow g3 fun m r' o' hm => ⟨fun hs => hodd ⟨lit, dist, r', o', chain_meets g1 (.here g2 hm), .inl hs⟩,
          fun hs => hodd ⟨lit, dist, r', o', chain_meets g1 (.here g2 hm), .inr hs⟩⟩
        simp only [if_true] at g4
        omega
      · have := chain_bound g1
        omega

set_option maxRecDepth 100000 in
/-- **C143** (what does not hold) A stream can make the decoder read bytes that it has not written: the distances 30 and 31,
which the fixed code has, are taken for 0.  Here `a` is followed by a copy of three bytes from there. -/
theorem C143_void_fails : decodeBuffer 10 false 10 [75, 4, 62, 0] = .ub := by decide +kernel

/-- the lengths of the codes of a block whose code 0 is the symbol 286 -/
def hangLit : List Nat := List.replicate 97 0 ++ [2] ++ List.replicate 158 0 ++ [2] ++ List.replicate 29 0 ++ [1]

/-- its head, and one `a` -/
def hangStream : List UInt8 := [245, 192, 129, 0, 0, 0, 0, 128, 32, 214, 253, 37, 38, 169, 0]

set_option maxRecDepth 100000 in
theorem hang_opens : Opens hangStream 1 hangLit [1] 111 := by
  obtain ⟨r, ls, hl, h1, h2⟩ : ∃ r ls, Lens hangStream (lenLens hangStream 17 (lsb hangStream 13 4 + 4)) (lsb hangStream 3 5 + 257 + (lsb hangStream 8 5 + 1))
      (17 + 3 * (lsb hangStream 13 4 + 4)) [] r ls ∧ r = 111 ∧ ls = hangLit ++ [1] := by
    refine ⟨_, _, .many (by decide +kernel) (by decide +kernel) (.one (c := 2) (by decide +kernel) (by decide) (by decide +kernel)
      (.many (by decide +kernel) (by decide +kernel) (.many (by decide +kernel) (by decide +kernel)
        (.one (c := 2) (by decide +kernel) (by decide) (by decide +kernel) (.many (by decide +kernel) (by decide +kernel)
          (.one (c := 1) (by decide +kernel) (by decide) (by decide +kernel) (.one (c := 1) (by decide +kernel) (by decide) (by decide +kernel)
            (.done (by decide +kernel))))))))), by decide +kernel, by decide +kernel⟩
  subst h1 h2
  have := Opens.dynamic (p := 1) (by decide +kernel) (by decide +kernel) hl (by decide +kernel) (by decide +kernel)
  have e1 : List.take (lsb hangStream (1 + 2) 5 + 257) (hangLit ++ [1]) = hangLit := by decide +kernel
  have e2 : List.drop (lsb hangStream (1 + 2) 5 + 257) (hangLit ++ [1]) = [1] := by decide +kernel
  rw [e1, e2] at this
  exact this

set_option maxRecDepth 100000 in
/-- **C143** (what does not hold) A stream of 15 bytes on which decoding does not end, though nothing more is written: the code 0
is the symbol 286, that is a copy of no bytes, and behind the end of the stream there are zeros. -/
theorem C143_hang_fails (n : Nat) : decodeMalloc n (2 ^ 31) false 16384 hangStream = .diverges := by
  have hbit : ∀ p, 113 ≤ p → bitAt hangStream p = 0 := by
    intro p hp
    by_cases h : p < 120
    · have : ∀ p, p < 120 → 113 ≤ p → bitAt hangStream p = 0 := by decide +kernel
      exact this p h hp
    · exact bit_behind (by simp only [hangStream, List.length_cons, List.length_nil]; omega)
  have hP : ∀ p out, (113 ≤ p ∧ out = [97] ∨ p = 111 ∧ out = []) → ∃ q out', Step true hangStream hangLit [1] p out q out' ∧
      (113 ≤ q ∧ out' = [97] ∨ q = 111 ∧ out' = []) := by
    rintro p out (⟨hp, rfl⟩ | ⟨rfl, rfl⟩)
    · have l1 : lenOf hangLit (257 + 29) = 1 := by decide +kernel
      have c1 : codeOf hangLit (257 + 29) = 0 := by decide +kernel
      have l2 : lenOf [1] 0 = 1 := rfl
      have c2 : codeOf [1] 0 = 0 := by decide
      have s1 : SymAt hangStream hangLit p (257 + 29) := by
        refine ⟨by rw [l1]; decide, ?_⟩
        rw [l1, c1]
        simp [msb, hbit p hp]
      have s2 : SymAt hangStream [1] (p + lenOf hangLit (257 + 29)) 0 := by
        refine ⟨by decide, ?_⟩
        rw [l2, c2, l1]
        simp [msb, hbit (p + 1) (by omega)]
      refine ⟨_, _, .nothing rfl (.inl rfl) s1 (by decide) s2 (by simp [distLeast, distExtraBits, lsb]), .inl ⟨by rw [l1]; omega, rfl⟩⟩
    · exact ⟨_, _, .byte (c := 97) (by decide) (by decide +kernel), .inl ⟨by decide +kernel, by decide⟩⟩
  rcases endless hang_opens hP (.inr ⟨rfl, rfl⟩) n (room := 2 ^ 31) (initial := 16384) (by decide) (by decide) (Nat.le_refl _) with ⟨_, p, out, h1, h2⟩ | ⟨h, _⟩
  · exfalso
    rcases h1 with ⟨_, rfl⟩ | ⟨_, rfl⟩ <;> simp at h2
  · exact h

/-- the lengths of the codes of a block whose code 0 is `a` -/
def floodLit : List Nat := List.replicate 97 0 ++ [1] ++ List.replicate 158 0 ++ [1]

/-- its head, and nothing else -/
def floodStream : List UInt8 := [5, 192, 129, 0, 0, 0, 0, 0, 144, 86, 255, 19, 0]

set_option maxRecDepth 100000 in
theorem flood_opens : Opens floodStream 1 floodLit [1] 98 := by
  obtain ⟨r, ls, hl, h1, h2⟩ : ∃ r ls, Lens floodStream (lenLens floodStream 17 (lsb floodStream 13 4 + 4)) (lsb floodStream 3 5 + 257 + (lsb floodStream 8 5 + 1))
      (17 + 3 * (lsb floodStream 13 4 + 4)) [] r ls ∧ r = 98 ∧ ls = floodLit ++ [1] := by
    refine ⟨_, _, .many (by decide +kernel) (by decide +kernel) (.one (c := 1) (by decide +kernel) (by decide) (by decide +kernel)
      (.many (by decide +kernel) (by decide +kernel) (.many (by decide +kernel) (by decide +kernel)
        (.one (c := 1) (by decide +kernel) (by decide) (by decide +kernel) (.one (c := 1) (by decide +kernel) (by decide) (by decide +kernel)
            (.done (by decide +kernel))))))), by decide +kernel, by decide +kernel⟩
  subst h1 h2
  have := Opens.dynamic (p := 1) (by decide +kernel) (by decide +kernel) hl (by decide +kernel) (by decide +kernel)
  have e1 : List.take (lsb floodStream (1 + 2) 5 + 257) (floodLit ++ [1]) = floodLit := by decide +kernel
  have e2 : List.drop (lsb floodStream (1 + 2) 5 + 257) (floodLit ++ [1]) = [1] := by decide +kernel
  rw [e1, e2] at this
  exact this

set_option maxRecDepth 100000 in
/-- **C143** (what does not hold) A stream of 13 bytes, cut off, that makes the decoder write byte after byte until the size of
the buffer is no longer an `int`: undefined behaviour, if there is memory for that much. -/
theorem C143_flood_fails (n : Nat) (hn : 2 ^ 31 + 1 < n) : decodeMalloc n (2 ^ 31) false 16384 floodStream = .ub := by
  have hbit : ∀ p, 98 ≤ p → bitAt floodStream p = 0 := by
    intro p hp
    by_cases h : p < 104
    · have : ∀ p, p < 104 → 98 ≤ p → bitAt floodStream p = 0 := by decide +kernel
      exact this p h hp
    · exact bit_behind (by simp only [floodStream, List.length_cons, List.length_nil]; omega)
  have l1 : lenOf floodLit 97 = 1 := by decide +kernel
  have c1 : codeOf floodLit 97 = 0 := by decide +kernel
  have hs : ∀ p, 98 ≤ p → SymAt floodStream floodLit p 97 := by
    intro p hp
    refine ⟨by rw [l1]; decide, ?_⟩
    rw [l1, c1]
    simp [msb, hbit p hp]
  have hP : ∀ p (out : List UInt8), 98 ≤ p → ∃ q out', Step true floodStream floodLit [1] p out q out' ∧ 98 ≤ q :=
    fun p out hp => ⟨_, _, .byte (c := 97) (by decide) (hs p hp), by omega⟩
  rcases endless flood_opens (P := fun p _ => 98 ≤ p) hP (by decide) n (room := 2 ^ 31) (initial := 16384) (by decide) (by decide) (Nat.le_refl _) with
    ⟨h, _⟩ | ⟨_, p, out, h1, h2⟩
  · exact h
  · exfalso
    have := steps_grow h1 fun m r o hm => by
      have hr : 98 ≤ r := steps_keep (P := fun p _ => 98 ≤ p) hP hm (by decide)
      have ha := hs r hr
      exact ⟨fun h => by have := sym_unique ha h; omega, fun h => by have := sym_unique ha h; omega⟩
    simp only [List.length_nil] at this
    omega

set_option maxRecDepth 100000 in
/-- **C143** (what does not hold) A buffer that grows must not be empty at first: twice nothing is nothing, and making room does
not end.  Here one byte is stored. -/
theorem C143_empty_fails : decodeMalloc 10 100 false 0 [1, 1, 0, 254, 255, 97] = .diverges ∧
    decodeMalloc 10 100 false 1 [1, 1, 0, 254, 255, 97] = .ok [97] ∧ ∀ need n, 0 < need → grow need n 0 = .diverges := by
  refine ⟨by decide +kernel, by decide +kernel, fun need n hneed => ?_⟩
  induction n with
  | zero => rfl
  | succ n ih => rw [grow, if_pos hneed, if_pos (by decide)]; exact ih

end Verif.Inflate
