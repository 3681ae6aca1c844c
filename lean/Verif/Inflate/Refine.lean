import Verif.Inflate.Tables

/-!
# Lemmas: the decoder follows the format
-/

namespace Verif.Inflate

variable {inp : List UInt8}

/-! ## Room for the output -/

/-- there will be room for `n` bytes in all -/
def Can (z : ZBuf) (n : Nat) : Prop :=
  z.exp = false ∧ n ≤ z.cap ∨ z.exp = true ∧ 1 ≤ z.cap ∧ n ≤ 2 ^ 30 ∧ 2 * n ≤ z.room

theorem grow_ok {need : Nat} (hneed : need ≤ 2 ^ 30) : ∀ {n limit : Nat}, need ≤ limit * 2 ^ n →
    ∃ l, grow need (n + 1) limit = .ok l ∧ limit ≤ l ∧ need ≤ l ∧ (l = limit ∨ l < 2 * need) := by
  intro n
  induction n with
  | zero =>
    intro limit h
    rw [grow, if_neg (by omega)]
    exact ⟨limit, rfl, Nat.le_refl _, by omega, .inl rfl⟩
  | succ n ih =>
    intro limit h
    rw [grow]
    split
    · rename_i hlt
      rw [if_pos (by omega)]
      obtain ⟨l, h1, h2, h3, h4⟩ := ih (limit := limit * 2) (by rw [Nat.pow_succ] at h; rw [Nat.mul_assoc, Nat.mul_comm 2]; exact h)
      refine ⟨l, h1, by omega, h3, ?_⟩
      rcases h4 with h4 | h4
      · exact .inr (by omega)
      · exact .inr h4
    · exact ⟨limit, rfl, Nat.le_refl _, by omega, .inl rfl⟩

theorem reserve_can {z : ZBuf} {n m : Nat} (hc : Can z m) (hm : z.out.length + n ≤ m) :
    ∃ c, reserve n z = .ok { z with cap := c } ∧ Can { z with cap := c } m := by
  rw [reserve]
  split
  · rename_i hlt
    rcases hc with ⟨h1, h2⟩ | ⟨h1, h2, h3, h4⟩
    · omega
    · rw [expand, if_neg (by simp [h1]), if_neg (by omega)]
      obtain ⟨l, e1, e2, e3, e4⟩ := grow_ok (need := z.out.length + n) (by omega) (n := 31) (limit := z.cap) (by
        have : 1 * 2 ^ 31 ≤ z.cap * 2 ^ 31 := Nat.mul_le_mul_right _ h2
        omega)
      rw [e1, Outcome.bind_ok, if_pos (by omega)]
      exact ⟨l, rfl, .inr ⟨h1, by simp only; omega, h3, h4⟩⟩
  · exact ⟨z.cap, rfl, hc⟩

/-- what making room can come to -/
theorem reserve_cases {n : Nat} {z : ZBuf} (hc : z.exp = true → 1 ≤ z.cap ∧ z.cap < 2 ^ 31) :
    (∃ c, reserve n z = .ok { z with cap := c } ∧ z.out.length + n ≤ c ∧ z.cap ≤ c ∧ (z.exp = false → c = z.cap) ∧ (z.exp = true → 1 ≤ c ∧ c < 2 ^ 31)) ∨
    (∃ e, reserve n z = .throws e ∧ (z.exp = true → z.room < 2 ^ 31)) ∨ (reserve n z = .ub ∧ z.exp = true ∧ 2 ^ 30 < z.out.length + n) := by
  rw [reserve]
  split
  · rw [expand]
    split
    · rename_i he
      exact .inr (.inl ⟨_, rfl, fun h => by simp [h] at he⟩)
    · rename_i hlt he
      have he' : z.exp = true := by simpa using he
      split
      · exact .inr (.inr ⟨rfl, he', by omega⟩)
      · have hcap := hc he'
        have key : (∃ l, grow (z.out.length + n) 32 z.cap = .ok l ∧ z.out.length + n ≤ l ∧ z.cap ≤ l ∧ l < 2 ^ 31) ∨
            (grow (z.out.length + n) 32 z.cap = .ub ∧ 2 ^ 30 < z.out.length + n) := by
          have gen : ∀ k limit, 1 ≤ limit → limit < 2 ^ 31 → 2 ^ 31 ≤ limit * 2 ^ k →
              (∃ l, grow (z.out.length + n) k limit = .ok l ∧ z.out.length + n ≤ l ∧ limit ≤ l ∧ l < 2 ^ 31) ∨
              (grow (z.out.length + n) k limit = .ub ∧ 2 ^ 30 < z.out.length + n) := by
            intro k
            induction k with
            | zero => intro limit h1 h2 h3; omega
            | succ k ih =>
              intro limit h1 h2 h3
              rw [grow]
              split
              · split
                · rename_i h5
                  rcases ih (limit * 2) (by omega) h5 (by rw [Nat.pow_succ] at h3; rw [Nat.mul_assoc, Nat.mul_comm 2]; exact h3) with
                    ⟨l, e1, e2, e3, e4⟩ | h
                  · exact .inl ⟨l, e1, e2, by omega, e4⟩
                  · exact .inr h
                · exact .inr ⟨rfl, by omega⟩
              · exact .inl ⟨limit, rfl, by omega, Nat.le_refl _, h2⟩
          exact gen 32 z.cap hcap.1 hcap.2 (by have : 1 * 2 ^ 32 ≤ z.cap * 2 ^ 32 := Nat.mul_le_mul_right _ hcap.1
                                               omega)
        rcases key with ⟨l, e1, e2, e3, e4⟩ | ⟨e1, e2⟩
        · rw [e1, Outcome.bind_ok]
          split
          · exact .inl ⟨l, rfl, e2, e3, fun h => absurd h (by simp [he']), fun _ => ⟨by omega, e4⟩⟩
          · exact .inr (.inl ⟨_, rfl, fun _ => by omega⟩)
        · rw [e1, Outcome.bind_ub]
          exact .inr (.inr ⟨rfl, he', e2⟩)
  · exact .inl ⟨z.cap, rfl, by omega, Nat.le_refl _, fun _ => rfl, hc⟩

/-! ## Copying -/

theorem copied_length (dist : Nat) : ∀ (n : Nat) (out : List UInt8), (copied dist n out).length = out.length + n := by
  intro n
  induction n with
  | zero => intro out; rfl
  | succ n ih => intro out; rw [copied, ih]; simp; omega

theorem copyBytes_ok {dist : Nat} : ∀ {n : Nat} {out : List UInt8}, 1 ≤ dist → dist ≤ out.length → copyBytes dist n out = .ok (copied dist n out) := by
  intro n
  induction n with
  | zero => intro out _ _; rfl
  | succ n ih =>
    intro out h1 h2
    rw [copyBytes, copied, List.getElem?_eq_getElem (by omega)]
    simp only [Option.getD_some]
    exact ih h1 (by simp; omega)

theorem copied_one (v : UInt8) : ∀ (n : Nat) (out : List UInt8), out[out.length - 1]? = some v → copied 1 n out = out ++ List.replicate n v := by
  intro n
  induction n with
  | zero => intro out _; simp [copied]
  | succ n ih =>
    intro out h
    rw [copied, h, ih _ (by simp)]
    simp [List.replicate_succ]

theorem copy_ok {dist n : Nat} {out : List UInt8} (h1 : 1 ≤ dist) (h2 : dist ≤ out.length) : copy dist n out = .ok (copied dist n out) := by
  rw [copy]
  split
  · rename_i hd
    have : out.length - 1 < out.length := by omega
    rw [List.getElem?_eq_getElem this]
    simp only
    rw [hd, copied_one _ n out (List.getElem?_eq_getElem this)]
  · exact copyBytes_ok h1 h2

/-! ## Symbols -/

theorem withExtra_ok {base extra : List Nat} {i b e : Nat} {z : ZBuf} {p : Nat} (hb : base[i]? = some b) (he : extra[i]? = some e) (h25 : e ≤ 25)
    (hr : Rep inp z p) : ∃ z', withExtra base extra i z = .ok (b + lsb inp p e, z') ∧ Rep inp z' (p + e) ∧ dst z' = dst z := by
  rw [withExtra, tab, hb, tab, he]
  simp only [Outcome.bind_ok]
  split
  · obtain ⟨z', e1, e2, _, e3⟩ := receive_ok hr h25
    rw [e1, Outcome.bind_ok]
    exact ⟨z', rfl, e2, e3⟩
  · rename_i h0
    have h0 : e = 0 := by simpa using h0
    subst h0
    exact ⟨z, rfl, hr, rfl⟩

theorem length_tab : ∀ l, l < 29 → lengthBase[l]? = some (lenBase l) ∧ lengthExtra[l]? = some (lenExtra l) ∧ lenExtra l ≤ 5 := by decide

theorem dist_tab : ∀ d, d < 30 → distBase[d]? = some (distLeast d) ∧ distExtra[d]? = some (distExtraBits d) ∧ distExtraBits d ≤ 13 ∧ 1 ≤ distLeast d := by decide

/-- the tables of a block: codes for bytes and lengths, and for distances -/
structure Codes (lit dist : List Nat) (hl hd : Huff) : Prop where
  fl : Fits lit
  nl : lit.length ≤ 288
  bl : Built lit hl
  fd : Fits dist
  nd : dist.length ≤ 32
  bd : Built dist hd

theorem sym_lt {ls : List Nat} {p i : Nat} (h : SymAt inp ls p i) : i < ls.length := (lenOf_pos h.1).1

/-- the state stands for a place and the output so far -/
def At (inp : List UInt8) (z : ZBuf) (p : Nat) (out : List UInt8) : Prop := Rep inp z p ∧ z.out = out

theorem step_length {lax : Bool} {lit dist : List Nat} {p q : Nat} {out out' : List UInt8} (h : Step lax inp lit dist p out q out') :
    out.length ≤ out'.length := by
  cases h with
  | byte _ _ => simp
  | copy _ _ _ _ _ => rw [copied_length]; omega
  | nothing => exact Nat.le_refl _
  | nowhere => exact Nat.le_refl _

theorem steps_length {lax : Bool} {lit dist : List Nat} {n p q : Nat} {out out' : List UInt8} (h : Steps lax inp lit dist n p out q out') :
    out.length ≤ out'.length := by
  induction h with
  | refl => exact Nat.le_refl _
  | step h _ ih => exact Nat.le_trans (step_length h) ih

/-- one symbol of the loop: what it comes to -/
theorem huffman_round {lit dist : List Nat} {hl hd : Huff} (hc : Codes lit dist hl hd) {z : ZBuf} {p : Nat} (hr : Rep inp z p)
    (hcap : z.exp = true → 1 ≤ z.cap ∧ z.cap < 2 ^ 31) (n : Nat) :
    (∃ z' q out', huffmanBlock hl hd (n + 1) z = huffmanBlock hl hd n z' ∧ Step true inp lit dist p z.out q out' ∧ Rep inp z' q ∧ z'.out = out' ∧
      z'.exp = z.exp ∧ z'.room = z.room ∧ z.cap ≤ z'.cap ∧ (z.exp = false → z'.cap = z.cap) ∧ (z.exp = true → 1 ≤ z'.cap ∧ z'.cap < 2 ^ 31) ∧
      (z.out.length ≤ z.cap → z'.out.length ≤ z'.cap) ∧ ∀ m, Can z m → out'.length ≤ m → Can z' m) ∨
    (∃ z', huffmanBlock hl hd (n + 1) z = .ok z' ∧ SymAt inp lit p 256 ∧ Rep inp z' (p + lenOf lit 256) ∧ dst z' = dst z) ∨
    (∃ e, huffmanBlock hl hd (n + 1) z = .throws e ∧
      ((∀ q out', ¬ Step true inp lit dist p z.out q out') ∧ ¬ SymAt inp lit p 256 ∨
        ∃ q out', Step true inp lit dist p z.out q out' ∧ (z.exp = true → z.room < 2 ^ 31) ∧ ∀ m, Can z m → ¬ out'.length ≤ m)) ∨
    (huffmanBlock hl hd (n + 1) z = .ub ∧ ((∃ l d, l < 29 ∧ SymAt inp lit p (257 + l) ∧ (d = 30 ∨ d = 31) ∧
        SymAt inp dist (p + lenOf lit (257 + l) + lenExtra l) d) ∨
      (z.exp = true ∧ ∃ q out', Step true inp lit dist p z.out q out' ∧ 2 ^ 30 < out'.length))) := by
  have e1d : ∀ {y : ZBuf}, dst y = dst z → y.out = z.out ∧ y.cap = z.cap ∧ y.exp = z.exp ∧ y.room = z.room := by
    intro y h
    simp only [dst, Prod.mk.injEq] at h
    exact h
  -- making room and writing
  have write : ∀ (y : ZBuf) (q k : Nat) (out' : List UInt8) (f : ZBuf → Outcome ZBuf), Rep inp y q → dst y = dst z → out'.length = z.out.length + k →
      Step true inp lit dist p z.out q out' → (∀ c, f { y with cap := c } = huffmanBlock hl hd n { y with cap := c, out := out' }) →
      (∃ z' q out', (reserve k y >>= f) = huffmanBlock hl hd n z' ∧ Step true inp lit dist p z.out q out' ∧ Rep inp z' q ∧ z'.out = out' ∧
        z'.exp = z.exp ∧ z'.room = z.room ∧ z.cap ≤ z'.cap ∧ (z.exp = false → z'.cap = z.cap) ∧ (z.exp = true → 1 ≤ z'.cap ∧ z'.cap < 2 ^ 31) ∧
        (z.out.length ≤ z.cap → z'.out.length ≤ z'.cap) ∧ ∀ m, Can z m → out'.length ≤ m → Can z' m) ∨
      (∃ z', (reserve k y >>= f) = .ok z' ∧ SymAt inp lit p 256 ∧ Rep inp z' (p + lenOf lit 256) ∧ dst z' = dst z) ∨
      (∃ e, (reserve k y >>= f) = .throws e ∧
        ((∀ q out', ¬ Step true inp lit dist p z.out q out') ∧ ¬ SymAt inp lit p 256 ∨
          ∃ q out', Step true inp lit dist p z.out q out' ∧ (z.exp = true → z.room < 2 ^ 31) ∧ ∀ m, Can z m → ¬ out'.length ≤ m)) ∨
      ((reserve k y >>= f) = .ub ∧ ((∃ l d, l < 29 ∧ SymAt inp lit p (257 + l) ∧ (d = 30 ∨ d = 31) ∧
          SymAt inp dist (p + lenOf lit (257 + l) + lenExtra l) d) ∨
        (z.exp = true ∧ ∃ q out', Step true inp lit dist p z.out q out' ∧ 2 ^ 30 < out'.length))) := by
    intro y q k out' f hy hd hlen hs hf
    obtain ⟨d1, d2, d3, d4⟩ := e1d hd
    have hcan : ∀ m, Can z m → Can y m := by
      intro m h
      unfold Can at h ⊢
      rw [d2, d3, d4]
      exact h
    rcases reserve_cases (n := k) (z := y) (by rw [d2, d3]; exact hcap) with ⟨c, c1, c2, c3, c4, c5⟩ | ⟨e, he, hroom⟩ | ⟨h1, h2, h3⟩
    · left
      rw [c1, Outcome.bind_ok, hf]
      rw [d1] at c2
      rw [d2] at c3
      rw [d3] at c4 c5
      refine ⟨_, q, out', rfl, hs, hy, rfl, d3, d4, c3, fun h => by rw [← d2]; exact c4 h, c5, fun _ => by simp only; omega, fun m hm hle => ?_⟩
      obtain ⟨c', r1, r2⟩ := reserve_can (n := k) (hcan m hm) (by rw [d1]; omega)
      rw [c1] at r1
      have : c = c' := by
        have := congrArg (fun o => match o with | Outcome.ok y => y.cap | _ => 0) r1
        simpa using this
      subst this
      exact r2
    · right; right; left
      rw [he, Outcome.bind_throws]
      refine ⟨e, rfl, .inr ⟨q, out', hs, by rw [← d3, ← d4]; exact hroom, fun m hm hle => ?_⟩⟩
      obtain ⟨c, r1, _⟩ := reserve_can (n := k) (hcan m hm) (by rw [d1]; omega)
      rw [he] at r1
      cases r1
    · right; right; right
      rw [h1, Outcome.bind_ub]
      exact ⟨rfl, .inr ⟨by rw [← d3]; exact h2, q, out', hs, by rw [hlen, ← d1]; exact h3⟩⟩
  rw [huffmanBlock]
  obtain ⟨r, y, hy1, hy2, hy3⟩ := decode_ok hc.fl hc.nl hc.bl hr
  rw [hy1, Outcome.bind_ok]
  cases r with
  | none =>
    right; right; left
    simp only at hy3 ⊢
    refine ⟨_, rfl, .inl ⟨?_, hy3 256⟩⟩
    intro q out' hs
    cases hs with
    | byte _ h => exact hy3 _ h
    | copy _ h _ _ _ => exact hy3 _ h
    | nothing _ _ h _ _ _ => exact hy3 _ h
    | nowhere _ _ h _ _ => exact hy3 _ h
  | some c =>
    simp only at hy3 ⊢
    obtain ⟨hsym, hrep⟩ := hy3
    by_cases h256 : c < 256
    · rw [if_pos h256]
      obtain ⟨d1, d2, d3, d4⟩ := e1d hy2
      exact write y (p + lenOf lit c) 1 (z.out ++ [UInt8.ofNat c]) _ hrep hy2 (by simp) (.byte h256 hsym) (fun c' => by simp only; rw [d1])
    · rw [if_neg h256]
      by_cases heq : c = 256
      · subst heq
        rw [if_pos rfl]
        exact .inr (.inl ⟨y, rfl, hsym, hrep, hy2⟩)
      · rw [if_neg heq]
        have hclt : c < 288 := Nat.lt_of_lt_of_le (sym_lt hsym) hc.nl
        obtain ⟨l, rfl⟩ : ∃ l, c = 257 + l := ⟨c - 257, by omega⟩
        have hl31 : l < 31 := by omega
        rw [Nat.add_sub_cancel_left]
        -- nothing else can be at the place
        have only : ∀ {i}, SymAt inp lit p i → i = 257 + l := fun h => sym_unique h hsym
        by_cases hl29 : l < 29
        · obtain ⟨t1, t2, t3⟩ := length_tab l hl29
          obtain ⟨y1, e1, e2, e3⟩ := withExtra_ok t1 t2 (by omega) hrep
          rw [e1, Outcome.bind_ok]
          obtain ⟨r2, y2, g1, g2, g3⟩ := decode_ok hc.fd (by have := hc.nd; omega) hc.bd e2
          simp only
          rw [g1, Outcome.bind_ok]
          cases r2 with
          | none =>
            right; right; left
            simp only at g3 ⊢
            refine ⟨_, rfl, .inl ⟨?_, fun h => by have := only h; omega⟩⟩
            intro q out' hs
            cases hs with
            | byte h1 h => have := only h; omega
            | copy h1 h2 h3 h4 _ =>
              have := only h2
              rw [show ∀ a b, 257 + a = 257 + b ↔ a = b from fun a b => by omega] at this
              subst this
              exact g3 _ h4
            | nothing _ h1 h2 _ _ _ => have := only h2; omega
            | nowhere _ h1 h2 _ _ => have := only h2; omega
          | some d =>
            simp only at g3 ⊢
            obtain ⟨dsym, drep⟩ := g3
            have hd32 : d < 32 := Nat.lt_of_lt_of_le (sym_lt dsym) hc.nd
            by_cases hd30 : d < 30
            · obtain ⟨u1, u2, u3, u4⟩ := dist_tab d hd30
              obtain ⟨y3, f1, f2, f3⟩ := withExtra_ok u1 u2 (by omega) drep
              rw [f1, Outcome.bind_ok]
              have hdst : dst y3 = dst z := f3.trans (g2.trans (e3.trans hy2))
              obtain ⟨d1, d2, d3, d4⟩ := e1d hdst
              simp only
              rw [d1]
              split
              · rename_i hbad
                right; right; left
                refine ⟨_, rfl, .inl ⟨?_, fun h => by have := only h; omega⟩⟩
                intro q out' hs
                cases hs with
                | byte h1 h => have := only h; omega
                | copy h1 h2 h3 h4 h5 =>
                  have := only h2
                  rw [show ∀ a b, 257 + a = 257 + b ↔ a = b from fun a b => by omega] at this
                  subst this
                  have := sym_unique h4 dsym
                  subst this
                  omega
                | nothing _ h1 h2 _ _ _ => have := only h2; omega
                | nowhere _ h1 h2 _ _ => have := only h2; omega
              · rename_i hok
                have hstep : Step true inp lit dist p z.out _ _ := Step.copy hl29 hsym hd30 dsym (by omega)
                exact write y3 _ _ _ _ f2 hdst (by rw [copied_length]) hstep (fun c' => by
                    simp only
                    rw [d1, copy_ok (by omega) (by omega), Outcome.bind_ok])
            · have hd' : d = 30 ∨ d = 31 := by omega
              have u1 : distBase[d]? = some 0 ∧ distExtra[d]? = some 0 := by rcases hd' with rfl | rfl <;> exact ⟨rfl, rfl⟩
              obtain ⟨y3, f1, f2, f3⟩ := withExtra_ok u1.1 u1.2 (by omega) drep
              rw [f1, Outcome.bind_ok]
              simp only [lsb, Nat.add_zero, Nat.not_lt_zero, if_false]
              have hdst : dst y3 = dst z := f3.trans (g2.trans (e3.trans hy2))
              obtain ⟨d1, d2, d3, d4⟩ := e1d hdst
              have hreason : ∃ l d, l < 29 ∧ SymAt inp lit p (257 + l) ∧ (d = 30 ∨ d = 31) ∧
                  SymAt inp dist (p + lenOf lit (257 + l) + lenExtra l) d := ⟨l, d, hl29, hsym, hd', dsym⟩
              rcases reserve_cases (n := lenBase l + lsb inp (p + lenOf lit (257 + l)) (lenExtra l)) (z := y3) (by rw [d2, d3]; exact hcap) with
                ⟨c, c1, c2, c3, c4, c5⟩ | ⟨e, he, hroom⟩ | ⟨h1, h2, h3⟩
              · right; right; right
                rw [c1, Outcome.bind_ok, copy, if_neg (by decide)]
                obtain ⟨k, hk⟩ : ∃ k, lenBase l + lsb inp (p + lenOf lit (257 + l)) (lenExtra l) = k + 1 := by
                  have : ∀ l, l < 29 → 1 ≤ lenBase l := by decide
                  have := this l hl29
                  exact ⟨lenBase l + lsb inp (p + lenOf lit (257 + l)) (lenExtra l) - 1, by omega⟩
                rw [hk, copyBytes, Nat.sub_zero, List.getElem?_eq_none (Nat.le_refl _)]
                exact ⟨rfl, .inl hreason⟩
              · right; right; left
                rw [he, Outcome.bind_throws]
                refine ⟨e, rfl, .inl ⟨?_, fun h => by have := only h; omega⟩⟩
                intro q out' hs
                cases hs with
                | byte h1 h => have := only h; omega
                | copy h1 h2 h3 h4 h5 =>
                  have := only h2
                  rw [show ∀ a b, 257 + a = 257 + b ↔ a = b from fun a b => by omega] at this
                  subst this
                  have := sym_unique h4 dsym
                  omega
                | nothing _ h1 h2 _ _ _ => have := only h2; omega
                | nowhere _ h1 h2 _ _ => have := only h2; omega
              · right; right; right
                rw [h1, Outcome.bind_ub]
                exact ⟨rfl, .inl hreason⟩
        · have hl' : l = 29 ∨ l = 30 := by omega
          have t1 : lengthBase[l]? = some 0 ∧ lengthExtra[l]? = some 0 := by rcases hl' with rfl | rfl <;> exact ⟨rfl, rfl⟩
          obtain ⟨y1, e1, e2, e3⟩ := withExtra_ok t1.1 t1.2 (by omega) hrep
          rw [e1, Outcome.bind_ok]
          rw [Nat.add_zero] at e2
          obtain ⟨r2, y2, g1, g2, g3⟩ := decode_ok hc.fd (by have := hc.nd; omega) hc.bd e2
          simp only
          rw [g1, Outcome.bind_ok]
          cases r2 with
          | none =>
            right; right; left
            simp only at g3 ⊢
            refine ⟨_, rfl, .inl ⟨?_, fun h => by have := only h; omega⟩⟩
            intro q out' hs
            cases hs with
            | byte h1 h => have := only h; omega
            | copy h1 h2 h3 h4 _ => have := only h2; omega
            | nothing _ h1 h2 _ h4 _ =>
              have := only h2
              rw [show ∀ a b, 257 + a = 257 + b ↔ a = b from fun a b => by omega] at this
              subst this
              exact g3 _ h4
            | nowhere _ h1 h2 _ h4 =>
              have := only h2
              rw [show ∀ a b, 257 + a = 257 + b ↔ a = b from fun a b => by omega] at this
              subst this
              exact g3 _ h4
          | some d =>
            simp only at g3 ⊢
            obtain ⟨dsym, drep⟩ := g3
            have hd32 : d < 32 := Nat.lt_of_lt_of_le (sym_lt dsym) hc.nd
            by_cases hd30 : d < 30
            · obtain ⟨u1, u2, u3, u4⟩ := dist_tab d hd30
              obtain ⟨y3, f1, f2, f3⟩ := withExtra_ok u1 u2 (by omega) drep
              rw [f1, Outcome.bind_ok]
              have hdst : dst y3 = dst z := f3.trans (g2.trans (e3.trans hy2))
              obtain ⟨d1, d2, d3, d4⟩ := e1d hdst
              simp only
              rw [d1]
              split
              · rename_i hbad
                right; right; left
                refine ⟨_, rfl, .inl ⟨?_, fun h => by have := only h; omega⟩⟩
                intro q out' hs
                cases hs with
                | byte h1 h => have := only h; omega
                | copy h1 h2 h3 h4 h5 => have := only h2; omega
                | nothing _ h1 h2 _ h4 h5 =>
                  have := only h2
                  rw [show ∀ a b, 257 + a = 257 + b ↔ a = b from fun a b => by omega] at this
                  subst this
                  have := sym_unique h4 dsym
                  subst this
                  omega
                | nowhere _ h1 h2 h3 h4 =>
                  have := only h2
                  rw [show ∀ a b, 257 + a = 257 + b ↔ a = b from fun a b => by omega] at this
                  subst this
                  have := sym_unique h4 dsym
                  omega
              · rename_i hok
                have hstep : Step true inp lit dist p z.out _ _ := Step.nothing rfl hl' hsym hd30 dsym (by omega)
                exact write y3 _ 0 _ _ f2 hdst rfl hstep (fun c' => by
                    simp only
                    rw [d1, copy_ok (by omega) (by omega), Outcome.bind_ok]
                    rfl)
            · have hd' : d = 30 ∨ d = 31 := by omega
              have u1 : distBase[d]? = some 0 ∧ distExtra[d]? = some 0 := by rcases hd' with rfl | rfl <;> exact ⟨rfl, rfl⟩
              obtain ⟨y3, f1, f2, f3⟩ := withExtra_ok u1.1 u1.2 (by omega) drep
              rw [f1, Outcome.bind_ok]
              simp only [lsb, Nat.add_zero, Nat.not_lt_zero, if_false]
              have hdst : dst y3 = dst z := f3.trans (g2.trans (e3.trans hy2))
              obtain ⟨d1, d2, d3, d4⟩ := e1d hdst
              have hstep : Step true inp lit dist p z.out _ _ := Step.nowhere rfl hl' hsym hd' dsym
              exact write y3 _ 0 _ _ (by simpa using f2) hdst rfl hstep (fun c' => by
                  simp only
                  rw [d1, copy, if_neg (by decide), copyBytes, Outcome.bind_ok])

end Verif.Inflate
