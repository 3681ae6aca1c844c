import Verif.Png.Reader
import Verif.Png.FileSpec

/-! # Chunk by chunk -/

namespace Verif.Png

/-- a chunk other than the last -/
def dispatch (rounds room : Nat) (st : St) (type len : Nat) (s : Src) : Outcome (St × Src) :=
  if type = typeOf 'I' 'H' 'D' 'R' then header st len s
  else if type = typeOf 'P' 'L' 'T' 'E' then palette st len s
  else if type = typeOf 't' 'R' 'N' 'S' then transparent st len s
  else if type = typeOf 'I' 'D' 'A' 'T' then imageData rounds room st len s
  else other st type len s

/-- the number of four letters -/
def num (t : List UInt8) : Nat :=
  ((t.getD 0 0).toNat * 256 + (t.getD 1 0).toNat) * 65536 + ((t.getD 2 0).toNat * 256 + (t.getD 3 0).toNat)

theorem four {α : Type} {t : List α} (h : t.length = 4) : ∃ a b c d, t = [a, b, c, d] := by
  match t, h with
  | [a, b, c, d], _ => exact ⟨a, b, c, d, rfl⟩

theorem num_inj {t t' : List UInt8} (h : t.length = 4) (h' : t'.length = 4) (e : num t = num t') : t = t' := by
  obtain ⟨a, b, c, d, rfl⟩ := four h
  obtain ⟨a', b', c', d', rfl⟩ := four h'
  simp only [num, List.getD_cons_zero, List.getD_cons_succ] at e
  have l1 := a.toNat_lt; have l2 := b.toNat_lt; have l3 := c.toNat_lt; have l4 := d.toNat_lt
  have r1 := a'.toNat_lt; have r2 := b'.toNat_lt; have r3 := c'.toNat_lt; have r4 := d'.toNat_lt
  have e1 : a = a' := UInt8.toNat_inj.mp (by omega)
  have e2 : b = b' := UInt8.toNat_inj.mp (by omega)
  have e3 : c = c' := UInt8.toNat_inj.mp (by omega)
  have e4 : d = d' := UInt8.toNat_inj.mp (by omega)
  rw [e1, e2, e3, e4]

theorem be32_num {v : Nat} (h : v < 2 ^ 32) : num (be32 v) = v := by
  simp only [num, be32, List.getD_cons_zero, List.getD_cons_succ, UInt8.toNat_ofNat']
  omega

theorem get32_num {s : Src} {t r : List UInt8} (ht : t.length = 4) (h : s.all = t ++ r) : (get32 s).1 = num t ∧ (get32 s).2.all = r := by
  obtain ⟨a, b, c, d, rfl⟩ := four ht
  exact get32_all h

/-- a chunk is taken in -/
def Eats (rounds room : Nat) (st : St) (c : Chunk) (st' : St) : Prop :=
  ∀ s r, s.all = c.data ++ r → ∃ s', dispatch rounds room st (num c.type) c.data.length s = .ok (st', s') ∧ s'.all = r

theorem num_letters : num (letters 'I' 'H' 'D' 'R') = typeOf 'I' 'H' 'D' 'R' ∧ num (letters 'P' 'L' 'T' 'E') = typeOf 'P' 'L' 'T' 'E' ∧
    num (letters 't' 'R' 'N' 'S') = typeOf 't' 'R' 'N' 'S' ∧ num (letters 'I' 'D' 'A' 'T') = typeOf 'I' 'D' 'A' 'T' ∧
    num (letters 'I' 'E' 'N' 'D') = typeOf 'I' 'E' 'N' 'D' := by decide

variable {rounds room : Nat}

theorem chunk_go {st st' : St} {c : Chunk} (hc : c.Fine) (he : Eats rounds room st c st') (hne : c.type ≠ letters 'I' 'E' 'N' 'D')
    {s : Src} {r : List UInt8} (hs : s.all = c.bytes ++ r) (k : Nat) :
    ∃ s', chunks rounds room (k + 1) st s = chunks rounds room k st' s' ∧ s'.all = r := by
  have h1 := get32_num (s := s) (t := be32 c.data.length) (r := c.type ++ (c.data ++ (c.crc ++ r))) rfl (by
    rw [hs, Chunk.bytes]; simp only [List.append_assoc])
  have h2 := get32_num hc.1 h1.2
  obtain ⟨s3, h3, h4⟩ := he _ _ h2.2
  have h5 := get32_num hc.2.1 h4
  refine ⟨(get32 s3).2, ?_, h5.2⟩
  have hne' : num c.type ≠ typeOf 'I' 'E' 'N' 'D' := fun h => hne (num_inj hc.1 rfl (h.trans num_letters.2.2.2.2.symm))
  rw [chunks]
  simp only [h1.1, h2.1]
  rw [if_neg hne', be32_num (by have := hc.2.2; omega)]
  rw [dispatch] at h3
  rw [h3, Outcome.bind_ok]

theorem chunk_end {st : St} {c : Chunk} (hc : c.Fine) (he : c.type = letters 'I' 'E' 'N' 'D') {s : Src} {r : List UInt8}
    (hs : s.all = c.bytes ++ r) (k : Nat) : chunks rounds room (k + 1) st s = finish rounds room st := by
  have h1 := get32_num (s := s) (t := be32 c.data.length) (r := c.type ++ (c.data ++ (c.crc ++ r))) rfl (by
    rw [hs, Chunk.bytes]; simp only [List.append_assoc])
  have h2 := get32_num hc.1 h1.2
  rw [chunks]
  simp only [h2.1]
  rw [if_pos (by rw [he]; exact num_letters.2.2.2.2)]

/-- chunks taken in one after another -/
inductive EatsAll (rounds room : Nat) : St → List Chunk → St → Prop
  | nil (st : St) : EatsAll rounds room st [] st
  | cons {st st1 st2 : St} {c : Chunk} {cs : List Chunk} : c.Fine → c.type ≠ letters 'I' 'E' 'N' 'D' → Eats rounds room st c st1 →
      EatsAll rounds room st1 cs st2 → EatsAll rounds room st (c :: cs) st2

theorem EatsAll.append {st st1 st2 : St} {cs ds : List Chunk} (h1 : EatsAll rounds room st cs st1) (h2 : EatsAll rounds room st1 ds st2) :
    EatsAll rounds room st (cs ++ ds) st2 := by
  induction h1 with
  | nil => exact h2
  | cons a b c _ ih => exact .cons a b c (ih h2)

theorem EatsAll.go {st st' : St} {cs : List Chunk} (h : EatsAll rounds room st cs st') :
    ∀ {s : Src} {r : List UInt8}, s.all = cs.flatMap Chunk.bytes ++ r → ∀ k,
      ∃ s', chunks rounds room (k + cs.length) st s = chunks rounds room k st' s' ∧ s'.all = r := by
  induction h with
  | nil st => intro s r hs k; exact ⟨s, rfl, hs⟩
  | @cons st st1 st2 c cs a b e _ ih =>
    intro s r hs k
    rw [List.flatMap_cons, List.append_assoc] at hs
    obtain ⟨s1, h1, h2⟩ := chunk_go a e b hs (k + cs.length)
    obtain ⟨s2, h3, h4⟩ := ih h2 k
    exact ⟨s2, by rw [List.length_cons, ← Nat.add_assoc, h1, h3], h4⟩

/-! ## The kinds of chunks -/

/-- other chunks -/
theorem eats_extra {st : St} {c : Chunk} (hc : c.Fine) (he : c.Extra) (hf : st.first = false) : Eats rounds room st c st := by
  intro s r hs
  have hbit : num c.type / 2 ^ 29 % 2 = 1 := by
    obtain ⟨a, b, cc, d, ht⟩ := four hc.1
    have h1 := he.1
    rw [ht] at h1 ⊢
    simp only [num, List.getD_cons_zero, List.getD_cons_succ] at h1 ⊢
    have l1 := a.toNat_lt; have l2 := b.toNat_lt; have l3 := cc.toNat_lt; have l4 := d.toNat_lt
    omega
  have hno : ∀ v, v / 2 ^ 29 % 2 = 0 → num c.type ≠ v := fun v hv h => by rw [h, hv] at hbit; omega
  refine ⟨skip s c.data.length, ?_, skip_all hs hc.2.2⟩
  rw [dispatch, if_neg (hno _ (by decide)), if_neg (hno _ (by decide)),
    if_neg (fun h => he.2 (num_inj hc.1 rfl (h.trans num_letters.2.2.1.symm))), if_neg (hno _ (by decide)), other,
    if_neg (hno _ (by decide)), if_neg (by rw [hf]; decide), if_neg (by omega)]

theorem eats_extras {st : St} (hf : st.first = false) : ∀ {cs : List Chunk}, (∀ c ∈ cs, c.Fine) → (∀ c ∈ cs, c.Extra) → EatsAll rounds room st cs st
  | [], _, _ => .nil st
  | c :: cs, h1, h2 => by
    refine .cons (h1 c (by simp)) ?_ (eats_extra (h1 c (by simp)) (h2 c (by simp)) hf)
      (eats_extras hf (fun c hc => h1 c (by simp [hc])) (fun c hc => h2 c (by simp [hc])))
    intro h
    have := (h2 c (by simp)).1
    rw [h] at this
    exact absurd this (by decide)

/-- the header -/
theorem eats_header {p : Picture} (hp : p.Allowed) (hW : p.W ≤ 2 ^ 24) (hH : p.H ≤ 2 ^ 24) (hpix : p.W * p.H ≤ 2 ^ 28) {c : Chunk}
    (ht : c.type = letters 'I' 'H' 'D' 'R') (hd : c.data = p.ihdr) :
    Eats rounds room {} c { first := false, x := p.W, y := p.H, depth := p.d, color := p.color, interlace := p.interlaced
                            palN := if p.color = 3 then 3 else 0, n := p.chan } := by
  intro s r hs
  rw [hd, Picture.ihdr] at hs
  simp only [List.append_assoc] at hs
  have h1 := get32_num rfl hs
  have h2 := get32_num rfl h1.2
  have h3 := get8_all h2.2
  have h4 := get8_all h3.2
  have h5 := get8_all h4.2
  have h6 := get8_all h5.2
  have h7 := get8_all h6.2
  have hlen : c.data.length = 13 := by rw [hd]; rfl
  have e1 := be32_num (v := p.W) (by omega)
  have e2 := be32_num (v := p.H) (by omega)
  have hcol := hp.colors
  have ed : (UInt8.ofNat p.d).toNat = p.d := by rw [UInt8.toNat_ofNat']; omega
  have ec : (UInt8.ofNat p.color).toNat = p.color := by rw [UInt8.toNat_ofNat']; omega
  refine ⟨_, ?_, h7.2⟩
  rw [dispatch, ht, num_letters.1, if_pos rfl]
  simp only [header, h1.1, h2.1, h3.1, h4.1, h5.1, h6.1, h7.1, e1, e2, ed, ec]
  have hsz := hp.size
  have hdiv : ∀ n, 1 ≤ n → n ≤ 4 → ¬ 2 ^ 30 / p.W / n < p.H := fun n hn1 hn4 => by
    rw [Nat.div_div_eq_div_mul, Nat.not_lt, Nat.le_div_iff_mul_le (Nat.mul_pos hsz.1 (by omega))]
    calc p.H * (p.W * n) = p.W * p.H * n := by ring
      _ ≤ 2 ^ 28 * 4 := Nat.mul_le_mul hpix hn4
      _ = 2 ^ 30 := by decide
  have hi : (if p.interlaced then (1 : UInt8) else 0).toNat ≤ 1 := by split <;> decide
  have hi' : ((if p.interlaced then (1 : UInt8) else 0).toNat == 1) = p.interlaced := by cases p.interlaced <;> decide
  rw [if_neg (by decide), if_neg (by omega), if_neg (by omega), if_neg (by omega), if_neg (by omega), if_neg (by omega),
    if_neg (by omega), if_neg (by omega), if_neg (by decide), if_neg (by decide), if_neg (by omega), if_neg (by omega), hi']
  rcases hcol with ⟨h, _⟩ | ⟨h, _⟩ | ⟨h | h | h, _⟩ <;> simp only [h, Picture.chan]
  · rw [if_pos (by decide), if_neg (hdiv _ (by decide) (by decide))]
    rfl
  · rw [if_neg (by decide), if_neg (hdiv _ (by decide) (by decide))]
  · rw [if_pos (by decide), if_neg (hdiv _ (by decide) (by decide))]
    rfl
  · rw [if_pos (by decide), if_neg (hdiv _ (by decide) (by decide))]
    rfl
  · rw [if_pos (by decide), if_neg (hdiv _ (by decide) (by decide))]
    rfl

/-- the palette as it is read -/
theorem readPal_ok : ∀ (e : List (UInt8 × UInt8 × UInt8)) (i : Nat) (pal : Nat → Option UInt8) {s : Src} {r : List UInt8},
    s.all = plteData e ++ r →
    (readPal e.length i pal s).2.all = r ∧ (∀ j < i * 4, (readPal e.length i pal s).1 j = pal j) ∧
      ∀ k t, e[k]? = some t → (readPal e.length i pal s).1 ((i + k) * 4) = some t.1 ∧ (readPal e.length i pal s).1 ((i + k) * 4 + 1) = some t.2.1 ∧
        (readPal e.length i pal s).1 ((i + k) * 4 + 2) = some t.2.2 ∧ (readPal e.length i pal s).1 ((i + k) * 4 + 3) = some 255
  | [], i, pal, s, r, h => ⟨h, fun _ _ => rfl, fun k t h => by simp at h⟩
  | t :: e, i, pal, s, r, h => by
    rw [plteData, List.flatMap_cons] at h
    simp only [List.cons_append, List.nil_append] at h
    have h1 := get8_all h
    have h2 := get8_all h1.2
    have h3 := get8_all h2.2
    simp only [List.length_cons, readPal, h1.1, h2.1, h3.1]
    obtain ⟨g1, g2, g3⟩ := readPal_ok e (i + 1) (fun j => if j = i * 4 then some t.1 else if j = i * 4 + 1 then some t.2.1
      else if j = i * 4 + 2 then some t.2.2 else if j = i * 4 + 3 then some 255 else pal j) h3.2
    refine ⟨g1, fun j hj => ?_, fun k u hk => ?_⟩
    · rw [g2 j (by omega), if_neg (by omega), if_neg (by omega), if_neg (by omega), if_neg (by omega)]
    · cases k with
      | zero =>
        simp only [List.getElem?_cons_zero, Option.some.injEq] at hk
        subst hk
        simp only [Nat.add_zero]
        rw [g2 _ (by omega), g2 _ (by omega), g2 _ (by omega), g2 _ (by omega)]
        refine ⟨if_pos rfl, ?_, ?_, ?_⟩
        · rw [if_neg (by omega), if_pos rfl]
        · rw [if_neg (by omega), if_neg (by omega), if_pos rfl]
        · rw [if_neg (by omega), if_neg (by omega), if_neg (by omega), if_pos rfl]
      | succ k =>
        rw [List.getElem?_cons_succ] at hk
        have := g3 k u hk
        rw [show i + 1 + k = i + (k + 1) by omega] at this
        exact this

theorem plteData_length (e : List (UInt8 × UInt8 × UInt8)) : (plteData e).length = e.length * 3 := by
  induction e with
  | nil => rfl
  | cons t e ih =>
    rw [plteData] at ih
    rw [plteData, List.flatMap_cons, List.length_append, ih]
    simp only [List.length_cons, List.length_nil]
    omega

/-- the palette of the decoder holds the entries -/
def Holds (e : List (UInt8 × UInt8 × UInt8)) (al : List Nat) (pal : Nat → Option UInt8) : Prop :=
  ∀ k t, e[k]? = some t → pal (k * 4) = some t.1 ∧ pal (k * 4 + 1) = some t.2.1 ∧ pal (k * 4 + 2) = some t.2.2 ∧
    pal (k * 4 + 3) = some (UInt8.ofNat (al.getD k 255))

theorem eats_palette {st : St} (hf : st.first = false) {e : List (UInt8 × UInt8 × UInt8)} (he : e.length ≤ 256) {c : Chunk}
    (ht : c.type = letters 'P' 'L' 'T' 'E') (hd : c.data = plteData e) :
    ∃ pal, Holds e [] pal ∧ Eats rounds room st c { st with palLen := e.length, pal := pal } := by
  -- the palette does not depend on where it is read from
  have key : ∀ s r, s.all = c.data ++ r → ∃ s', dispatch rounds room st (num c.type) c.data.length s =
      .ok ({ st with palLen := e.length, pal := (readPal e.length 0 st.pal (start c.data)).1 }, s') ∧ s'.all = r := by
    intro s r hs
    rw [hd] at hs
    obtain ⟨g1, _, _⟩ := readPal_ok e 0 st.pal hs
    refine ⟨(readPal e.length 0 st.pal s).2, ?_, g1⟩
    have hl : c.data.length = e.length * 3 := by rw [hd, plteData_length]
    rw [dispatch, ht, num_letters.2.1, if_neg (by decide), if_pos rfl, palette, hf, hl, if_neg (by decide), if_neg (by omega), if_neg (by omega), if_neg (by omega),
      Nat.mul_div_cancel _ (by decide)]
    have same : ∀ (e : List (UInt8 × UInt8 × UInt8)) (i : Nat) (pal : Nat → Option UInt8) (s s' : Src) (r r' : List UInt8),
        s.all = plteData e ++ r → s'.all = plteData e ++ r' → (readPal e.length i pal s).1 = (readPal e.length i pal s').1 := by
      intro e
      induction e with
      | nil => intros; rfl
      | cons t e ih =>
        intro i pal s s' r r' h h'
        rw [plteData, List.flatMap_cons] at h h'
        simp only [List.cons_append, List.nil_append] at h h'
        have h1 := get8_all h
        have h2 := get8_all h1.2
        have h3 := get8_all h2.2
        have k1 := get8_all h'
        have k2 := get8_all k1.2
        have k3 := get8_all k2.2
        simp only [List.length_cons, readPal, h1.1, h2.1, h3.1, k1.1, k2.1, k3.1]
        exact ih _ _ _ _ r r' h3.2 k3.2
    have := same e 0 st.pal s (start c.data) r [] hs (by rw [start_all, hd, List.append_nil])
    simp only [this]
  refine ⟨_, fun k t hk => ?_, key⟩
  obtain ⟨_, _, g3⟩ := readPal_ok (s := start c.data) (r := []) e 0 st.pal (by rw [start_all, hd, List.append_nil])
  have := g3 k t hk
  rw [Nat.zero_add] at this
  exact this

theorem readAlpha_ok : ∀ (a : List Nat) (i : Nat) (pal : Nat → Option UInt8) {s : Src} {r : List UInt8},
    s.all = a.map UInt8.ofNat ++ r →
    (readAlpha a.length i pal s).2.all = r ∧
      ∀ j, (readAlpha a.length i pal s).1 j =
        if j % 4 = 3 ∧ i ≤ j / 4 ∧ j / 4 < i + a.length then some (UInt8.ofNat (a.getD (j / 4 - i) 255)) else pal j
  | [], i, pal, s, r, h => ⟨h, fun j => by rw [if_neg (by simp only [List.length_nil]; omega)]; rfl⟩
  | v :: a, i, pal, s, r, h => by
    rw [List.map_cons, List.cons_append] at h
    have h1 := get8_all h
    simp only [List.length_cons, readAlpha, h1.1]
    obtain ⟨g1, g2⟩ := readAlpha_ok a (i + 1) (fun j => if j = i * 4 + 3 then some (UInt8.ofNat v) else pal j) h1.2
    refine ⟨g1, fun j => ?_⟩
    rw [g2 j]
    by_cases h1 : j % 4 = 3 ∧ i + 1 ≤ j / 4 ∧ j / 4 < i + 1 + a.length
    · rw [if_pos h1, if_pos (by omega), show j / 4 - i = (j / 4 - (i + 1)) + 1 by omega, List.getD_cons_succ]
    · rw [if_neg h1]
      by_cases h2 : j = i * 4 + 3
      · rw [if_pos h2, if_pos (by omega), show j / 4 - i = 0 by omega, List.getD_cons_zero]
      · rw [if_neg h2, if_neg (by omega)]

/-- what is transparent, with a palette -/
theorem eats_alpha {st : St} (hf : st.first = false) (hi : st.idata = none) (hpn : st.palN ≠ 0) {e : List (UInt8 × UInt8 × UInt8)}
    (he : Holds e [] st.pal) (hl : st.palLen = e.length) (he0 : 0 < e.length) (h256 : e.length ≤ 256) {k : List Nat} (hk : k.length ≤ e.length) {c : Chunk}
    (ht : c.type = letters 't' 'R' 'N' 'S') (hd : c.data = k.map UInt8.ofNat) :
    ∃ pal, Holds e k pal ∧ Eats rounds room st c { st with palN := 4, pal := pal } := by
  refine ⟨fun j => if j % 4 = 3 ∧ 0 ≤ j / 4 ∧ j / 4 < 0 + k.length then some (UInt8.ofNat (k.getD (j / 4 - 0) 255)) else st.pal j, ?_, ?_⟩
  · intro i t hi
    obtain ⟨h1, h2, h3, h4⟩ := he i t hi
    simp only
    rw [if_neg (by omega), if_neg (by omega), if_neg (by omega)]
    refine ⟨h1, h2, h3, ?_⟩
    by_cases hik : i < k.length
    · rw [if_pos (by omega), show (i * 4 + 3) / 4 - 0 = i by omega]
    · rw [if_neg (by omega), h4, show k.getD i 255 = 255 by
        rw [List.getD_eq_getElem?_getD, List.getElem?_eq_none (by omega)]; rfl]
      rfl
  · intro s r hs
    rw [hd] at hs
    obtain ⟨g1, g2⟩ := readAlpha_ok k 0 st.pal hs
    refine ⟨_, ?_, g1⟩
    have hlen : c.data.length = k.length := by rw [hd, List.length_map]
    rw [dispatch, ht, num_letters.2.2.1, if_neg (by decide), if_neg (by decide), if_pos rfl, transparent, hf, hi, hlen, if_neg (by decide),
      if_neg (by decide), if_pos hpn, if_neg (by omega), if_neg (by omega), if_neg (by omega)]
    simp only [show (readAlpha k.length 0 st.pal s).1 = _ from funext g2]

theorem read16_ok : ∀ (k : List Nat) {s : Src} {r : List UInt8}, (∀ v ∈ k, v < 2 ^ 16) → s.all = k.flatMap be16 ++ r →
    (read16 k.length s).1 = k ∧ (read16 k.length s).2.all = r
  | [], s, r, _, h => ⟨rfl, h⟩
  | v :: k, s, r, hv, h => by
    rw [List.flatMap_cons, be16] at h
    simp only [List.cons_append, List.nil_append] at h
    have h1 := get16_all h
    have hv0 := hv v (by simp)
    have hval : (get16 s).1 = v := by
      rw [h1.1]
      simp only [UInt8.toNat_ofNat']
      omega
    obtain ⟨g1, g2⟩ := read16_ok k (fun w hw => hv w (by simp [hw])) h1.2
    simp only [List.length_cons, read16]
    exact ⟨by rw [hval, g1], g2⟩

theorem be16s_length (k : List Nat) : (k.flatMap be16).length = k.length * 2 := by
  induction k with
  | nil => rfl
  | cons v k ih => rw [List.flatMap_cons, List.length_append, ih, List.length_cons, Nat.succ_mul]; simp [be16]; omega

/-- what is transparent, without a palette -/
theorem eats_key {st : St} (hf : st.first = false) (hi : st.idata = none) (hpn : st.palN = 0) {k : List Nat} (hk : st.n = k.length)
    (hn : k.length % 2 = 1) (hv : ∀ v ∈ k, v < 2 ^ 16) (hd8 : st.depth < 9 ∨ st.depth = 16) {c : Chunk}
    (ht : c.type = letters 't' 'R' 'N' 'S') (hd : c.data = k.flatMap be16) :
    Eats rounds room st c (if st.depth = 16 then { st with trans := true, tc16 := k }
      else { st with trans := true, tc := k.map fun v => v % 256 * (depthScale.getD st.depth 0) % 256 }) := by
  intro s r hs
  rw [hd] at hs
  obtain ⟨g1, g2⟩ := read16_ok k hv hs
  refine ⟨(read16 k.length s).2, ?_, g2⟩
  have hlen : c.data.length = k.length * 2 := by rw [hd, be16s_length]
  rw [dispatch, ht, num_letters.2.2.1, if_neg (by decide), if_neg (by decide), if_pos rfl, transparent, hf, hi, hlen, if_neg (by decide),
    if_neg (by decide), if_neg (by omega), hk, if_neg (by omega), if_neg (by omega)]
  simp only [g1]
  by_cases h16 : st.depth = 16
  · rw [if_pos h16, if_pos h16]
  · rw [if_neg h16, if_neg h16, Inflate.tab, show depthScale[st.depth]? = some (depthScale.getD st.depth 0) by
      rw [List.getD_eq_getElem?_getD, List.getElem?_eq_getElem (by simp [depthScale]; omega)]; rfl]
    rfl

theorem grow_ok {need : Nat} (hneed : need < 2 ^ 31) : ∀ (n limit : Nat), 0 < limit → need ≤ limit * 2 ^ n →
    ∃ l, grow need (n + 1) limit = .ok l ∧ need ≤ l ∧ l ≤ max limit (2 * need)
  | 0, limit, _, h => by
    rw [Nat.pow_zero, Nat.mul_one] at h
    exact ⟨limit, by rw [grow, if_neg (by omega)], h, by omega⟩
  | n + 1, limit, h0, h => by
    rw [grow]
    split
    · rename_i hlt
      rw [Nat.mod_eq_of_lt (by omega)]
      obtain ⟨l, h1, h2, h3⟩ := grow_ok hneed n (limit * 2) (by omega) (by rw [Nat.mul_assoc, ← Nat.pow_succ']; exact h)
      exact ⟨l, h1, h2, by omega⟩
    · exact ⟨limit, rfl, by omega, by omega⟩

theorem grow_more {need : Nat} : ∀ (n k limit l : Nat), grow need n limit = .ok l → grow need (n + k) limit = .ok l
  | 0, _, _, _, h => by cases h
  | n + 1, k, limit, l, h => by
    rw [show n + 1 + k = n + k + 1 by omega, grow]
    rw [grow] at h
    split
    · rename_i hc
      rw [if_pos hc] at h
      exact grow_more n k _ _ h
    · rename_i hc
      rw [if_neg hc] at h
      exact h

theorem int32_small {v : Nat} (h : v < 2 ^ 31) : int32 v = v := by
  rw [int32, Nat.mod_eq_of_lt (by omega), if_pos h]

/-- a piece of the compressed data -/
theorem eats_data {st : St} (hr : 32 ≤ rounds) (hroom : 2 ^ 31 ≤ room) (hf : st.first = false) (hp : st.palN = 0 ∨ st.palLen ≠ 0)
    (hlim : st.limit ≤ 2 ^ 31) (hlen0 : (st.idata.getD []).length ≤ st.limit) {c : Chunk} (ht : c.type = letters 'I' 'D' 'A' 'T')
    (hsz : (st.idata.getD []).length + c.data.length ≤ 2 ^ 30) (hnone : st.idata = none → st.limit = 0) :
    ∃ idata limit, Eats rounds room st c { st with idata := idata, limit := limit } ∧ idata.getD [] = st.idata.getD [] ++ c.data ∧
      limit ≤ 2 ^ 31 ∧ (idata.getD []).length ≤ limit ∧ (idata = none → limit = 0) := by
  have hint : ¬ int32 ((st.idata.getD []).length + c.data.length) < int32 (st.idata.getD []).length := by
    rw [int32_small (by omega), int32_small (by omega)]; omega
  have hmod : ((st.idata.getD []).length + c.data.length) % 2 ^ 32 = (st.idata.getD []).length + c.data.length := Nat.mod_eq_of_lt (by omega)
  by_cases hneed : st.limit < (st.idata.getD []).length + c.data.length
  · obtain ⟨l, h1, h2, h3⟩ := grow_ok (need := (st.idata.getD []).length + c.data.length) (by omega) 31
      (if st.limit = 0 then (if 4096 < c.data.length then c.data.length else 4096) else st.limit) (by split <;> [split; skip] <;> omega) (by
        have : 1 ≤ (if st.limit = 0 then (if 4096 < c.data.length then c.data.length else 4096) else st.limit) := by
          split <;> [split; skip] <;> omega
        calc _ ≤ 2 ^ 31 := by omega
          _ ≤ _ * 2 ^ 31 := Nat.le_mul_of_pos_left _ this)
    have hl : l ≤ 2 ^ 31 := by
      have : (if st.limit = 0 then (if 4096 < c.data.length then c.data.length else 4096) else st.limit) ≤ 2 ^ 31 := by
        split <;> [split; skip] <;> omega
      omega
    refine ⟨some (st.idata.getD [] ++ c.data), l, ?_, rfl, hl, by simpa using h2, fun h => by cases h⟩
    intro s r hs
    obtain ⟨s', g1, g2⟩ := getn_all hs
    refine ⟨s', ?_, g2⟩
    have hg := grow_more (31 + 1) (rounds - 32) _ _ h1
    rw [show 31 + 1 + (rounds - 32) = rounds by omega] at hg
    rw [dispatch, ht, num_letters.2.2.2.1, if_neg (by decide), if_neg (by decide), if_neg (by decide), if_pos rfl, imageData, hf,
      if_neg (by decide), if_neg (by omega), if_neg hint, hmod, if_pos hneed, hg, Outcome.bind_ok, if_neg (by omega), Outcome.bind_ok, g1]
    rfl
  · refine ⟨st.idata.map (· ++ c.data), st.limit, ?_, ?_, hlim, ?_, ?_⟩
    · intro s r hs
      obtain ⟨s', g1, g2⟩ := getn_all hs
      refine ⟨s', ?_, g2⟩
      rw [dispatch, ht, num_letters.2.2.2.1, if_neg (by decide), if_neg (by decide), if_neg (by decide), if_pos rfl, imageData,
        if_neg (by rw [hf]; decide), if_neg (by omega), if_neg hint, hmod, if_neg hneed, Outcome.bind_ok, g1]
    · cases hi : st.idata with
      | none =>
        rw [hi] at hneed
        have := hnone hi
        have : c.data.length = 0 := by simp only [Option.getD_none, List.length_nil] at hneed; omega
        rw [List.length_eq_zero_iff.mp this]
        rfl
      | some d => rfl
    · cases hi : st.idata with
      | none => simp
      | some d => rw [hi] at hneed; simp at hneed ⊢; omega
    · intro h
      refine hnone ?_
      cases hi : st.idata with
      | none => rfl
      | some d => rw [hi] at h; cases h

theorem eats_datas (hr : 32 ≤ rounds) (hroom : 2 ^ 31 ≤ room) : ∀ {cs : List Chunk} {st : St}, st.first = false →
    (st.palN = 0 ∨ st.palLen ≠ 0) → st.limit ≤ 2 ^ 31 → (st.idata.getD []).length ≤ st.limit → (st.idata = none → st.limit = 0) →
    (∀ c ∈ cs, c.Fine) → (∀ c ∈ cs, c.type = letters 'I' 'D' 'A' 'T') →
    (st.idata.getD []).length + (cs.map Chunk.data).flatten.length ≤ 2 ^ 30 →
    ∃ idata limit, EatsAll rounds room st cs { st with idata := idata, limit := limit } ∧
      idata.getD [] = st.idata.getD [] ++ (cs.map Chunk.data).flatten := by
  intro cs
  induction cs with
  | nil => intro st _ _ _ _ _ _ _ _; exact ⟨st.idata, st.limit, .nil st, by simp⟩
  | cons c cs ih =>
    intro st hf hp hlim hlen0 hnone hfine hty hsz
    simp only [List.map_cons, List.flatten_cons, List.length_append] at hsz
    obtain ⟨i1, l1, h1, h2, h3, h4, h5⟩ := eats_data hr hroom hf hp hlim hlen0 (hty c (by simp)) (by omega) hnone
    obtain ⟨i2, l2, h6, h7⟩ := ih (st := { st with idata := i1, limit := l1 }) hf hp h3 h4 h5 (fun c hc => hfine c (by simp [hc]))
      (fun c hc => hty c (by simp [hc])) (by simp only; rw [h2, List.length_append]; omega)
    refine ⟨i2, l2, .cons (hfine c (by simp)) (by rw [hty c (by simp)]; decide) h1 h6, ?_⟩
    rw [h7]
    simp only [h2, List.map_cons, List.flatten_cons, List.append_assoc]

end Verif.Png
