import Verif.Json.PlaceModel

/-!
# Lemmas on the position of the reader

Every part of the lexer keeps the counters right (`At`), and does the same on two inputs that agree on the bytes it
takes (`Sim`).
-/

namespace Verif.Json

/-- how many lines end in a text -/
def Spec.lines : Bytes → Nat
  | [] => 0
  | c :: s => (if c = 0x0A then 1 else 0) + Spec.lines s

/-- how many bytes stand in a text behind the last end of a line -/
def Spec.lastLine (s : Bytes) : Nat := (s.reverse.takeWhile fun c => decide (c ≠ 0x0A)).length

open Spec

theorem lines_append (a b : Bytes) : lines (a ++ b) = lines a + lines b := by
  induction a with
  | nil => simp [lines]
  | cons c a ih => simp only [List.cons_append, lines, ih]; omega

theorem lastLine_nl (a : Bytes) : lastLine (a ++ [0x0A]) = 0 := by simp [lastLine]

theorem lastLine_snoc (a : Bytes) {c : Nat} (h : c ≠ 0x0A) : lastLine (a ++ [c]) = lastLine a + 1 := by
  simp [lastLine, List.takeWhile_cons, h]

/-- what the lexer will deliver -/
def Src.pend (r : Src) : Bytes :=
  if r.again then
    match r.cur with
    | some c => c :: r.rest
    | none => []
  else r.rest

/-- how many bytes have been taken from the input, the end included -/
def Src.read (r : Src) : Nat := r.total + if r.again then 1 else 0

/-- where the lexer is in the text `s`; it is `true` that something may still come -/
inductive At (s : Bytes) : Bool → Src → Prop
  | here (a rest : Bytes) (cur : Option Nat) : s = a ++ rest → At s true ⟨rest, a.length, lastLine a, lines a, cur, false⟩
  | ended : At s false ⟨[], s.length + 1, lastLine s + 1, lines s, none, false⟩
  | back (a rest : Bytes) (c : Nat) : s = a ++ c :: rest →
      At s true ⟨rest, a.length, if c = 0x0A then 0 else lastLine a, lines a, some c, true⟩
  | backEnd : At s true ⟨[], s.length, lastLine s, lines s, none, true⟩

/-- the lexer after `get` -/
inductive Just (s : Bytes) : Option Nat → Src → Prop
  | byte (a rest : Bytes) (c : Nat) : s = a ++ c :: rest →
      Just s (some c) ⟨rest, a.length + 1, lastLine (a ++ [c]), lines (a ++ [c]), some c, false⟩
  | ended : Just s none ⟨[], s.length + 1, lastLine s + 1, lines s, none, false⟩

theorem Just.at_some {s : Bytes} {c : Nat} {r : Src} (h : Just s (some c) r) : At s true r := by
  cases h with
  | byte a rest c hs =>
    have := At.here (s := s) (a ++ [c]) rest (some c) (by simpa using hs)
    simpa using this

theorem Just.at_none {s : Bytes} {r : Src} (h : Just s none r) : At s false r := by
  cases h; exact .ended

theorem Just.cur {s : Bytes} {c : Option Nat} {r : Src} (h : Just s c r) : r.cur = c := by cases h <;> rfl

theorem get_here (rest : Bytes) (t col line : Nat) (cur : Option Nat) (c : Nat) :
    Src.get ⟨c :: rest, t, col, line, cur, false⟩ =
      ⟨rest, t + 1, if c = 0x0A then 0 else col + 1, if c = 0x0A then line + 1 else line, some c, false⟩ := by
  by_cases h : c = 0x0A <;> simp [Src.get, h]

theorem get_end (t col line : Nat) (cur : Option Nat) :
    Src.get ⟨[], t, col, line, cur, false⟩ = ⟨[], t + 1, col + 1, line, none, false⟩ := by
  simp [Src.get]

theorem get_back (rest : Bytes) (t col line : Nat) (c : Nat) :
    Src.get ⟨rest, t, col, line, some c, true⟩ =
      ⟨rest, t + 1, if c = 0x0A then 0 else col + 1, if c = 0x0A then line + 1 else line, some c, false⟩ := by
  by_cases h : c = 0x0A <;> simp [Src.get, h]

theorem get_backEnd (t col line : Nat) :
    Src.get ⟨[], t, col, line, none, true⟩ = ⟨[], t + 1, col + 1, line, none, false⟩ := by
  simp [Src.get]

theorem just_snoc {s a rest : Bytes} {c : Nat} (h : s = a ++ c :: rest) :
    Just s (some c) ⟨rest, a.length + 1, if c = 0x0A then 0 else lastLine a + 1, if c = 0x0A then lines a + 1 else lines a,
      some c, false⟩ := by
  have := Just.byte a rest c h
  by_cases hc : c = 0x0A
  · subst hc
    rw [lastLine_nl, lines_append] at this
    simpa [lines] using this
  · rw [lastLine_snoc a hc, lines_append] at this
    simpa [lines, hc] using this

/-- `get` keeps the counters right -/
theorem at_get {s : Bytes} {r : Src} (h : At s true r) : Just s r.get.cur r.get ∧ r.get.cur = r.pend.head? ∧ r.get.pend = r.pend.tail ∧
    r.read ≤ r.get.read := by
  cases h with
  | here a rest cur hs =>
    cases rest with
    | nil =>
      rw [List.append_nil] at hs; subst hs
      rw [get_end]
      exact ⟨.ended, rfl, rfl, by simp [Src.read]⟩
    | cons c rest =>
      rw [get_here]
      exact ⟨just_snoc hs, rfl, rfl, by simp [Src.read]⟩
  | back a rest c hs =>
    rw [get_back]
    have := just_snoc hs
    refine ⟨?_, rfl, rfl, by simp [Src.read]⟩
    by_cases hc : c = 0x0A <;> simp only [hc, if_true, if_false] at this ⊢ <;> exact this
  | backEnd =>
    rw [get_backEnd]
    exact ⟨.ended, rfl, rfl, by simp [Src.read]⟩

/-- `unget`, right after `get` -/
theorem just_unget {s : Bytes} {c : Option Nat} {r : Src} (h : Just s c r) : At s true r.unget ∧
    r.unget.pend = (c.map (· :: r.pend)).getD [] ∧ r.unget.read = r.read := by
  cases h with
  | byte a rest c hs =>
    by_cases hc : c = 0x0A
    · subst hc
      have := At.back a rest 0x0A hs
      rw [lastLine_nl, lines_append]
      simp only [if_true] at this
      refine ⟨?_, ?_, ?_⟩
      · simpa [Src.unget, lines] using this
      · simp [Src.unget, Src.pend]
      · simp [Src.unget, Src.read]
    · have := At.back a rest c hs
      rw [lastLine_snoc a hc, lines_append]
      simp only [hc, if_false] at this
      refine ⟨?_, ?_, ?_⟩
      · simpa [Src.unget, lines, hc] using this
      · simp [Src.unget, Src.pend]
      · simp [Src.unget, Src.read]
  | ended =>
    refine ⟨?_, ?_, ?_⟩
    · simpa [Src.unget] using At.backEnd (s := s)
    · simp [Src.unget, Src.pend]
    · simp [Src.unget, Src.read]

/-- two lexers that have done the same, on inputs that agree on the first `N` bytes -/
structure Sim (N : Nat) (r r2 : Src) : Prop where
  total : r2.total = r.total
  col : r2.col = r.col
  line : r2.line = r.line
  cur : r2.cur = r.cur
  again : r2.again = r.again
  rest : r2.rest.take (N - r.read) = r.rest.take (N - r.read)

theorem Sim.get {N : Nat} {r r2 : Src} (h : Sim N r r2) (hN : r.get.read ≤ N) : Sim N r.get r2.get := by
  obtain ⟨rest, t, co, li, cu, ag⟩ := r
  obtain ⟨rest2, t2, co2, li2, cu2, ag2⟩ := r2
  obtain ⟨h1, h2, h3, h4, h5, hr⟩ := h
  simp only at h1 h2 h3 h4 h5
  subst h1 h2 h3 h4 h5
  cases ag2 with
  | true =>
    have : ∀ rest, Src.get ⟨rest, t2, co2, li2, cu2, true⟩ =
      ⟨rest, t2 + 1, if cu2 = some 0x0A then 0 else co2 + 1, if cu2 = some 0x0A then li2 + 1 else li2, cu2, false⟩ := by
      intro rest; by_cases h : cu2 = some 0x0A <;> simp [Src.get, h]
    rw [this, this]
    exact ⟨rfl, rfl, rfl, rfl, rfl, by simpa [Src.read] using hr⟩
  | false =>
    cases rest with
    | nil =>
      rw [get_end] at hN
      simp [Src.read] at hN hr
      have : rest2 = [] := by
        cases rest2 with
        | nil => rfl
        | cons c s => simp at hr; omega
      subst this
      rw [get_end]
      exact ⟨rfl, rfl, rfl, rfl, rfl, rfl⟩
    | cons c s =>
      rw [get_here] at hN
      simp [Src.read] at hN hr
      obtain ⟨m, hm⟩ : ∃ m, N - t2 = m + 1 := ⟨N - t2 - 1, by omega⟩
      rw [hm] at hr
      cases rest2 with
      | nil => simp at hr
      | cons c2 s2 =>
        simp only [List.take_succ_cons, List.cons.injEq] at hr
        obtain ⟨rfl, hr⟩ := hr
        rw [get_here, get_here]
        refine ⟨rfl, rfl, rfl, rfl, rfl, ?_⟩
        simp only [Src.read]
        rw [show N - (t2 + 1 + if false = true then 1 else 0) = m by simp; omega]
        exact hr

theorem Sim.unget {N : Nat} {r r2 : Src} (h : Sim N r r2) (hr : r.unget.read = r.read) : Sim N r.unget r2.unget := by
  obtain ⟨rest, t, co, li, cu, ag⟩ := r
  obtain ⟨rest2, t2, co2, li2, cu2, ag2⟩ := r2
  obtain ⟨h1, h2, h3, h4, h5, h6⟩ := h
  simp only at h1 h2 h3 h4 h5
  subst h1 h2 h3 h4 h5
  have e : ∀ rest, Src.unget ⟨rest, t2, co2, li2, cu2, ag2⟩ =
    ⟨rest, t2 - 1, if co2 = 0 then co2 else co2 - 1, if co2 = 0 then li2 - 1 else li2, cu2, true⟩ := by
    intro rest; by_cases h : co2 = 0 <;> simp [Src.unget, h]
  rw [← hr] at h6
  rw [e] at h6 ⊢
  rw [e]
  exact ⟨rfl, rfl, rfl, rfl, rfl, h6⟩

/-! ## Parts of the lexer -/

/-- what a part of the lexer leaves behind: if its result is in `P`, more may be read -/
def Post (P : α → Prop) (n : Nat) (x : Sc α) : Prop := ∀ s r, At s true r → r.pend.length < n →
  (∃ b, At s b (x r).2) ∧ (P (x r).1 → At s true (x r).2) ∧ (x r).2.pend.length ≤ r.pend.length ∧ r.read ≤ (x r).2.read

/-- a part of the lexer does the same on inputs that agree on what it takes -/
def Loc (n n2 : Nat) (x x2 : Sc α) : Prop := ∀ s r s2 r2, At s true r → At s2 true r2 → r.pend.length < n → r2.pend.length < n2 →
  ∀ N, Sim N r r2 → (x r).2.read ≤ N → (x2 r2).1 = (x r).1 ∧ Sim N (x r).2 (x2 r2).2

/-- a part of the lexer, with two bounds on the rounds of its loops -/
structure Steady (P : α → Prop) (n n2 : Nat) (x x2 : Sc α) : Prop where
  post : Post P n x
  post2 : Post P n2 x2
  loc : Loc n n2 x x2

theorem Steady.pure (P : α → Prop) (n n2 : Nat) (a : α) : Steady P n n2 (Sc.pure a) (Sc.pure a) :=
  have p : ∀ n, Post P n (Sc.pure a) := fun n s r h _ => ⟨⟨true, h⟩, fun _ => h, Nat.le_refl _, Nat.le_refl _⟩
  ⟨p n, p n2, fun _ _ _ _ _ _ _ _ _ h _ => ⟨rfl, h⟩⟩

/-- what follows a result after which nothing may be read -/
def Stops (Q : β → Prop) (y y2 : Sc β) : Prop := ∃ b, ¬ Q b ∧ y = Sc.pure b ∧ y2 = Sc.pure b

theorem Post.bind {P : α → Prop} {Q : β → Prop} {n : Nat} {x : Sc α} {g : α → Sc β} (hx : Post P n x)
    (hg : ∀ a, P a → Post Q n (g a)) (hs : ∀ a, ¬ P a → ∃ b, ¬ Q b ∧ g a = Sc.pure b) : Post Q n (x.bind g) := by
  intro s r h hn
  obtain ⟨h1, h2, h3, h4⟩ := hx s r h hn
  rw [Sc.bind]
  by_cases hp : P (x r).1
  · obtain ⟨g1, g2, g3, g4⟩ := hg _ hp s _ (h2 hp) (by omega)
    exact ⟨g1, g2, by omega, by omega⟩
  · obtain ⟨b, hb, e⟩ := hs _ hp
    rw [e]
    exact ⟨h1, fun hq => absurd hq hb, h3, h4⟩

theorem Steady.bind {P : α → Prop} {Q : β → Prop} {n n2 : Nat} {x x2 : Sc α} {g g2 : α → Sc β} (hx : Steady P n n2 x x2)
    (hg : ∀ a, P a → Steady Q n n2 (g a) (g2 a)) (hs : ∀ a, ¬ P a → Stops Q (g a) (g2 a)) :
    Steady Q n n2 (x.bind g) (x2.bind g2) := by
  refine ⟨hx.post.bind (fun a ha => (hg a ha).post) fun a ha => ?_, hx.post2.bind (fun a ha => (hg a ha).post2) fun a ha => ?_, ?_⟩
  · obtain ⟨b, hb, e, _⟩ := hs a ha; exact ⟨b, hb, e⟩
  · obtain ⟨b, hb, _, e⟩ := hs a ha; exact ⟨b, hb, e⟩
  · intro s r s2 r2 h h2 hn hn2 N hsim hN
    rw [Sc.bind, Sc.bind]
    rw [Sc.bind] at hN
    obtain ⟨p1, p2, p3, p4⟩ := hx.post s r h hn
    obtain ⟨q1, q2, q3, q4⟩ := hx.post2 s2 r2 h2 hn2
    by_cases hp : P (x r).1
    · obtain ⟨_, _, _, g4⟩ := (hg _ hp).post s _ (p2 hp) (by omega)
      obtain ⟨e, hsim'⟩ := hx.loc s r s2 r2 h h2 hn hn2 N hsim (by omega)
      rw [e]
      exact (hg _ hp).loc s _ s2 _ (p2 hp) (q2 (by rw [e]; exact hp)) (by omega) (by omega) N hsim' hN
    · obtain ⟨b, hb, e1, e2⟩ := hs _ hp
      rw [e1] at hN ⊢
      obtain ⟨e, hsim'⟩ := hx.loc s r s2 r2 h h2 hn hn2 N hsim hN
      rw [e, e2]
      exact ⟨rfl, hsim'⟩

/-- a part of the lexer that puts the byte back it has been called with -/
def Backs (y y2 : Sc β) : Prop := ∃ b, y = (fun r => (b, r.unget)) ∧ y2 = fun r => (b, r.unget)

theorem Post.get {Q : β → Prop} {n m : Nat} {g : Option Nat → Sc β} (hm : n ≤ m + 1)
    (hsome : ∀ c, Post Q m (g (some c)) ∨ ∃ b, g (some c) = fun r => (b, r.unget))
    (hnone : (∃ b, ¬ Q b ∧ g none = Sc.pure b) ∨ ∃ b, g none = fun r => (b, r.unget)) : Post Q n (getc.bind g) := by
  intro s r h hn
  obtain ⟨hj, hc, ht, hr⟩ := at_get h
  rw [Sc.bind, getc]
  simp only
  generalize r.get.cur = c at *
  cases c with
  | none =>
    rcases hnone with ⟨b, hb, e⟩ | ⟨b, e⟩
    · rw [e]
      exact ⟨⟨false, hj.at_none⟩, fun h => absurd h hb, by simp only [Sc.pure, ht, List.length_tail]; omega, hr⟩
    · rw [e]
      obtain ⟨u1, u2, u3⟩ := just_unget hj
      exact ⟨⟨true, u1⟩, fun _ => u1, by simp [u2], by simp only [u3]; exact hr⟩
  | some c =>
    have hp : r.pend = c :: r.get.pend := by
      rw [ht]; cases hp : r.pend with
      | nil => rw [hp] at hc; cases hc
      | cons d s => rw [hp] at hc; cases hc; rfl
    have hl : r.pend.length = r.get.pend.length + 1 := by rw [hp]; rfl
    rcases hsome c with hg | ⟨b, e⟩
    · obtain ⟨g1, g2, g3, g4⟩ := hg s _ hj.at_some (by omega)
      exact ⟨g1, g2, by omega, by omega⟩
    · rw [e]
      obtain ⟨u1, u2, u3⟩ := just_unget hj
      exact ⟨⟨true, u1⟩, fun _ => u1, by simp [u2, hl], by simp only [u3]; exact hr⟩

theorem Steady.get {Q : β → Prop} {n n2 m m2 : Nat} {g g2 : Option Nat → Sc β} (hm : n ≤ m + 1) (hm2 : n2 ≤ m2 + 1)
    (hsome : ∀ c, Steady Q m m2 (g (some c)) (g2 (some c)) ∨ Backs (g (some c)) (g2 (some c)))
    (hnone : Stops Q (g none) (g2 none) ∨ Backs (g none) (g2 none)) : Steady Q n n2 (getc.bind g) (getc.bind g2) := by
  refine ⟨Post.get hm (fun c => ?_) ?_, Post.get hm2 (fun c => ?_) ?_, ?_⟩
  · exact (hsome c).imp (·.post) fun ⟨b, h, _⟩ => ⟨b, h⟩
  · exact hnone.imp (fun ⟨b, hb, h, _⟩ => ⟨b, hb, h⟩) fun ⟨b, h, _⟩ => ⟨b, h⟩
  · exact (hsome c).imp (·.post2) fun ⟨b, _, h⟩ => ⟨b, h⟩
  · exact hnone.imp (fun ⟨b, hb, _, h⟩ => ⟨b, hb, h⟩) fun ⟨b, _, h⟩ => ⟨b, h⟩
  · intro s r s2 r2 h h2 hn hn2 N hsim hN
    simp only [Sc.bind, getc] at hN ⊢
    obtain ⟨hj, hc, ht, hr⟩ := at_get h
    obtain ⟨hj2, hc2, ht2, _⟩ := at_get h2
    -- how much has been read after `get`
    have hlow : r.get.read ≤ (g r.get.cur r.get).2.read := by
      cases hcur : r.get.cur with
      | none =>
        rw [hcur] at hj
        rcases hnone with ⟨b, _, e, _⟩ | ⟨b, e, _⟩
        · rw [e]; exact Nat.le_refl _
        · rw [e]; exact Nat.le_of_eq (just_unget hj).2.2.symm
      | some c =>
        rw [hcur] at hj
        rcases hsome c with hg | ⟨b, e, _⟩
        · have hl : r.get.pend.length < m := by
            have : r.pend.length = r.get.pend.length + 1 := by
              rw [ht]; cases hp : r.pend with
              | nil => rw [hp, hcur] at hc; cases hc
              | cons d s => rfl
            omega
          exact (hg.post s _ hj.at_some hl).2.2.2
        · rw [e]; exact Nat.le_of_eq (just_unget hj).2.2.symm
    have hs := hsim.get (by omega)
    have ecur : r2.get.cur = r.get.cur := hs.cur
    rw [ecur]
    rw [ecur] at hj2 hc2
    cases hcur : r.get.cur with
    | none =>
      rw [hcur] at hj hN
      rcases hnone with ⟨b, _, e, e2⟩ | ⟨b, e, e2⟩
      · rw [e, e2]; exact ⟨rfl, hs⟩
      · rw [e, e2]; exact ⟨rfl, hs.unget (just_unget hj).2.2⟩
    | some c =>
      rw [hcur] at hj hj2 hN hc hc2
      have hl : r.pend.length = r.get.pend.length + 1 := by
        rw [ht]; cases hp : r.pend with
        | nil => rw [hp] at hc; cases hc
        | cons d s => rfl
      have hl2 : r2.pend.length = r2.get.pend.length + 1 := by
        rw [ht2]; cases hp : r2.pend with
        | nil => rw [hp] at hc2; cases hc2
        | cons d s => rfl
      rcases hsome c with hg | ⟨b, e, e2⟩
      · exact hg.loc s _ s2 _ hj.at_some hj2.at_some (by omega) (by omega) N hs hN
      · rw [e, e2]; exact ⟨rfl, hs.unget (just_unget hj).2.2⟩

/-- a result after which more may be read -/
def Some' (o : Option α) : Prop := o.isSome = true

theorem stops_none {n : Option α → Sc (Option β)} (h : n none = Sc.pure none) : Stops Some' (n none) (n none) :=
  ⟨none, by simp [Some'], h, h⟩

theorem steady_codepoint (n n2 : Nat) : ∀ (fs : List Nat) (cp : Nat), Steady Some' n n2 (placeCodepoint fs cp) (placeCodepoint fs cp)
  | [], cp => Steady.pure _ _ _ _
  | f :: fs, cp => by
    simp only [placeCodepoint]
    refine Steady.get (m := n) (m2 := n2) (by omega) (by omega) (fun c => .inl ?_) (.inl ⟨none, by simp [Some'], rfl, rfl⟩)
    simp only
    repeat' split
    all_goals first
      | exact steady_codepoint n n2 fs _
      | exact Steady.pure _ _ _ _

theorem not_some {o : Option α} (h : ¬ Some' o) : o = none := by
  cases o with
  | none => rfl
  | some a => exact absurd rfl h

theorem steady_range (n n2 : Nat) : ∀ (rs : List (Nat × Nat)), Steady Some' n n2 (placeRange rs) (placeRange rs)
  | [] => Steady.pure _ _ _ _
  | (lo, hi) :: rs => by
    simp only [placeRange]
    refine Steady.get (m := n) (m2 := n2) (by omega) (by omega) (fun c => .inl ?_) (.inl ⟨none, by simp [Some'], rfl, rfl⟩)
    simp only
    split
    · refine (steady_range n n2 rs).bind (fun a _ => Steady.pure _ _ _ _) fun a ha => ?_
      rw [not_some ha]
      exact ⟨none, by simp [Some'], rfl, rfl⟩
    · exact Steady.pure _ _ _ _

theorem steady_low (n n2 cp1 : Nat) : Steady Some' n n2 (placeLow cp1) (placeLow cp1) := by
  rw [placeLow]
  refine Steady.get (m := n) (m2 := n2) (by omega) (by omega) (fun c => .inl ?_) (.inl ⟨none, by simp [Some'], by simp, by simp⟩)
  split
  · refine Steady.get (m := n) (m2 := n2) (by omega) (by omega) (fun c => .inl ?_) (.inl ⟨none, by simp [Some'], by simp, by simp⟩)
    split
    · refine (steady_codepoint n n2 _ _).bind (fun a _ => ?_) fun a ha => ?_
      · cases a with
        | none => exact Steady.pure _ _ _ _
        | some cp2 =>
          simp only
          split <;> exact Steady.pure _ _ _ _
      · rw [not_some ha]
        exact ⟨none, by simp [Some'], rfl, rfl⟩
    · exact Steady.pure _ _ _ _
  · exact Steady.pure _ _ _ _

theorem steady_unicode (n n2 : Nat) : Steady Some' n n2 placeUnicode placeUnicode := by
  rw [placeUnicode]
  refine (steady_codepoint n n2 _ _).bind (fun a _ => ?_) fun a ha => ?_
  · cases a with
    | none => exact Steady.pure _ _ _ _
    | some cp =>
      simp only
      repeat' split
      all_goals first
        | exact steady_low n n2 _
        | exact Steady.pure _ _ _ _
  · rw [not_some ha]
    exact ⟨none, by simp [Some'], rfl, rfl⟩

theorem steady_escape (n n2 : Nat) : Steady Some' n n2 placeEscape placeEscape := by
  rw [placeEscape]
  refine Steady.get (m := n) (m2 := n2) (by omega) (by omega) (fun c => .inl ?_) (.inl ⟨none, by simp [Some'], by simp, by simp⟩)
  split
  all_goals first
    | exact steady_unicode n n2
    | exact Steady.pure _ _ _ _

theorem steady_char (n n2 c : Nat) : Steady Some' n n2 (placeChar c) (placeChar c) := by
  have multi : ∀ rs, Steady Some' n n2 ((placeRange rs).bind fun o => Sc.pure (o.map (c :: ·)))
      ((placeRange rs).bind fun o => Sc.pure (o.map (c :: ·))) := by
    intro rs
    refine (steady_range n n2 rs).bind (fun a _ => Steady.pure _ _ _ _) fun a ha => ?_
    rw [not_some ha]
    exact ⟨none, by simp [Some'], rfl, rfl⟩
  simp only [placeChar]
  repeat' split
  all_goals first
    | exact steady_escape n n2
    | exact multi _
    | exact Steady.pure _ _ _ _

/-- a part that is called with more rounds than there are bytes -/
theorem steady_zero (P : α → Prop) (n2 : Nat) (x x2 : Sc α) (h : Post P n2 x2) : Steady P 0 n2 x x2 :=
  ⟨fun _ _ _ h => absurd h (Nat.not_lt_zero _), h, fun _ _ _ _ _ _ h => absurd h (Nat.not_lt_zero _)⟩

theorem steady_zero2 (P : α → Prop) (n : Nat) (x x2 : Sc α) (h : Post P n x) : Steady P n 0 x x2 :=
  ⟨h, fun _ _ _ h => absurd h (Nat.not_lt_zero _), fun _ _ _ _ _ _ _ h => absurd h (Nat.not_lt_zero _)⟩

/-- induction over the rounds of a loop -/
theorem steady_loop {P : α → Prop} {f : Nat → β → Sc α}
    (step : ∀ n n2, (∀ b, Steady P n n2 (f n b) (f n2 b)) → ∀ b, Steady P (n + 1) (n2 + 1) (f (n + 1) b) (f (n2 + 1) b)) :
    ∀ n n2 b, Steady P n n2 (f n b) (f n2 b) := by
  have self : ∀ n b, Steady P n n (f n b) (f n b) := by
    intro n
    induction n with
    | zero => exact fun b => steady_zero P 0 _ _ fun _ _ _ h => absurd h (Nat.not_lt_zero _)
    | succ n ih => exact step n n ih
  intro n
  induction n with
  | zero => exact fun n2 b => steady_zero P n2 _ _ (self n2 b).post
  | succ n ih =>
    intro n2 b
    cases n2 with
    | zero => exact steady_zero2 P _ _ _ (self _ b).post
    | succ n2 => exact step n n2 (ih n2) b

theorem Post.mono {P : α → Prop} {n m : Nat} {x : Sc α} (h : Post P m x) (hm : n ≤ m) : Post P n x :=
  fun s r ha hn => h s r ha (by omega)

theorem Steady.mono {P : α → Prop} {n n2 m m2 : Nat} {x x2 : Sc α} (h : Steady P m m2 x x2) (hm : n ≤ m) (hm2 : n2 ≤ m2) :
    Steady P n n2 x x2 :=
  ⟨h.post.mono hm, h.post2.mono hm2, fun s r s2 r2 a a2 hn hn2 => h.loc s r s2 r2 a a2 (by omega) (by omega)⟩

theorem steady_string : ∀ n n2 buf, Steady Some' n n2 (placeString n buf) (placeString n2 buf) := by
  refine steady_loop fun n n2 ih buf => ?_
  simp only [placeString]
  refine Steady.get (m := n) (m2 := n2) (by omega) (by omega) (fun c => .inl ?_) (.inl ⟨none, by simp [Some'], rfl, rfl⟩)
  simp only
  split
  · exact Steady.pure _ _ _ _
  · refine (steady_char n n2 c).bind (fun a _ => ?_) fun a ha => ?_
    · cases a with
      | none => exact Steady.pure _ _ _ _
      | some out => exact ih _
    · rw [not_some ha]
      exact ⟨none, by simp [Some'], rfl, rfl⟩

theorem backs_done (ty : NumType) (buf : Bytes) : Backs (placeDone ty buf) (placeDone ty buf) := ⟨_, rfl, rfl⟩

theorem steady_any2 : ∀ n n2 buf, Steady Some' n n2 (placeAny2 n buf) (placeAny2 n2 buf) := by
  refine steady_loop fun n n2 ih buf => ?_
  simp only [placeAny2]
  refine Steady.get (m := n) (m2 := n2) (by omega) (by omega) (fun c => ?_) (.inr (backs_done _ _))
  simp only
  split
  · exact .inl (ih _)
  · exact .inr (backs_done _ _)

theorem steady_sign (n n2 : Nat) (buf : Bytes) : Steady Some' n n2 (placeSign n buf) (placeSign n2 buf) := by
  simp only [placeSign]
  refine Steady.get (m := n) (m2 := n2) (by omega) (by omega) (fun c => .inl ?_) (.inl ⟨none, by simp [Some'], rfl, rfl⟩)
  simp only
  split
  · exact steady_any2 n n2 _
  · exact Steady.pure _ _ _ _

theorem steady_exponent (n n2 : Nat) (buf : Bytes) : Steady Some' n n2 (placeExponent n buf) (placeExponent n2 buf) := by
  simp only [placeExponent]
  refine Steady.get (m := n) (m2 := n2) (by omega) (by omega) (fun c => .inl ?_) (.inl ⟨none, by simp [Some'], rfl, rfl⟩)
  simp only
  split
  · exact steady_sign n n2 _
  · split
    · exact steady_any2 n n2 _
    · exact Steady.pure _ _ _ _

theorem steady_decimal2 : ∀ n n2 buf, Steady Some' n n2 (placeDecimal2 n buf) (placeDecimal2 n2 buf) := by
  refine steady_loop fun n n2 ih buf => ?_
  simp only [placeDecimal2]
  refine Steady.get (m := n) (m2 := n2) (by omega) (by omega) (fun c => ?_) (.inr (backs_done _ _))
  simp only
  split
  · exact .inl (ih _)
  · split
    · exact .inl (steady_exponent n n2 _)
    · exact .inr (backs_done _ _)

theorem steady_decimal1 (n n2 : Nat) (buf : Bytes) : Steady Some' n n2 (placeDecimal1 n buf) (placeDecimal1 n2 buf) := by
  simp only [placeDecimal1]
  refine Steady.get (m := n) (m2 := n2) (by omega) (by omega) (fun c => .inl ?_) (.inl ⟨none, by simp [Some'], rfl, rfl⟩)
  simp only
  split
  · exact steady_decimal2 n n2 _
  · exact Steady.pure _ _ _ _

theorem steady_any1 (ty : NumType) : ∀ n n2 buf, Steady Some' n n2 (placeAny1 ty n buf) (placeAny1 ty n2 buf) := by
  refine steady_loop fun n n2 ih buf => ?_
  simp only [placeAny1]
  refine Steady.get (m := n) (m2 := n2) (by omega) (by omega) (fun c => ?_) (.inr (backs_done _ _))
  simp only
  repeat' split
  · exact .inl (ih _)
  · exact .inl (steady_decimal1 n n2 _)
  · exact .inl (steady_exponent n n2 _)
  · exact .inr (backs_done _ _)

theorem steady_zeroDigit (ty : NumType) (n n2 : Nat) (buf : Bytes) : Steady Some' n n2 (placeZero ty n buf) (placeZero ty n2 buf) := by
  simp only [placeZero]
  refine Steady.get (m := n) (m2 := n2) (by omega) (by omega) (fun c => ?_) (.inr (backs_done _ _))
  simp only
  repeat' split
  · exact .inl (steady_decimal1 n n2 _)
  · exact .inl (steady_exponent n n2 _)
  · exact .inr (backs_done _ _)

theorem steady_minus (n n2 : Nat) (buf : Bytes) : Steady Some' n n2 (placeMinus n buf) (placeMinus n2 buf) := by
  simp only [placeMinus]
  refine Steady.get (m := n) (m2 := n2) (by omega) (by omega) (fun c => .inl ?_) (.inl ⟨none, by simp [Some'], rfl, rfl⟩)
  simp only
  repeat' split
  · exact steady_zeroDigit _ n n2 _
  · exact steady_any1 _ n n2 _
  · exact Steady.pure _ _ _ _

theorem steady_number (n n2 c : Nat) : Steady Some' n n2 (placeNumber n c) (placeNumber n2 c) := by
  simp only [placeNumber]
  repeat' split
  · exact steady_minus n n2 _
  · exact steady_zeroDigit _ n n2 _
  · exact steady_any1 _ n n2 _

/-- a token after which the parser may read on -/
def Going : Token F → Prop
  | .error | .eof => False
  | _ => True

theorem steady_literal (n n2 : Nat) (tok : Token F) : ∀ ls, Steady Going n n2 (placeLiteral tok ls) (placeLiteral tok ls)
  | [] => Steady.pure _ _ _ _
  | l :: ls => by
    simp only [placeLiteral]
    refine Steady.get (m := n) (m2 := n2) (by omega) (by omega) (fun c => .inl ?_)
      (.inl ⟨.error, by simp [Going], by simp, by simp⟩)
    split
    · exact steady_literal n n2 tok ls
    · exact Steady.pure _ _ _ _

theorem steady_space : ∀ n n2, Steady Some' n n2 (placeSpace n) (placeSpace n2) := by
  intro n n2
  refine steady_loop (f := fun n (_ : Unit) => placeSpace n) (fun n n2 ih _ => ?_) n n2 ()
  simp only [placeSpace]
  refine Steady.get (m := n) (m2 := n2) (by omega) (by omega) (fun c => .inl ?_) (.inl ⟨none, by simp [Some'], rfl, rfl⟩)
  simp only
  split
  · exact ih ()
  · exact Steady.pure _ _ _ _

theorem Steady.ite {P : α → Prop} {n n2 : Nat} {p : Prop} [Decidable p] {x x2 y y2 : Sc α} (hx : p → Steady P n n2 x x2)
    (hy : ¬ p → Steady P n n2 y y2) : Steady P n n2 (if p then x else y) (if p then x2 else y2) := by
  by_cases h : p
  · simp only [h, if_true]; exact hx h
  · simp only [h, if_false]; exact hy h

theorem steady_switch (fl : Floats F) (n n2 : Nat) (c : Option Nat) : Steady Going n n2 (placeSwitch fl n c) (placeSwitch fl n2 c) := by
  cases c with
  | none => exact Steady.pure _ _ _ _
  | some c =>
    simp only [placeSwitch]
    iterate 6 refine Steady.ite (fun _ => Steady.pure _ _ _ _) fun _ => ?_
    iterate 3 refine Steady.ite (fun _ => steady_literal n n2 _ _) fun _ => ?_
    refine Steady.ite (fun _ => ?_) fun _ => Steady.ite (fun _ => ?_) fun _ => Steady.ite (fun _ => Steady.pure _ _ _ _)
      fun _ => Steady.pure _ _ _ _
    · refine (steady_string n n2 _).bind (fun a _ => ?_) fun a ha => ?_
      · cases a <;> exact Steady.pure _ _ _ _
      · rw [not_some ha]
        exact ⟨.error, by simp [Going], rfl, rfl⟩
    · refine (steady_number n n2 _).bind (fun a _ => ?_) fun a ha => ?_
      · cases a <;> exact Steady.pure _ _ _ _
      · rw [not_some ha]
        exact ⟨.error, by simp [Going], rfl, rfl⟩

theorem steady_token (fl : Floats F) (n n2 : Nat) : Steady Going n n2 (placeToken fl n) (placeToken fl n2) := by
  refine (steady_space n n2).bind (fun c _ => steady_switch fl n n2 c) fun c hc => ?_
  rw [not_some hc]
  exact ⟨.eof, by simp [Going], rfl, rfl⟩

/-! ## The parser -/

/-- the end of a round after which more may be read -/
def Moving : Turn F → Prop
  | .next t _ skip => Going t ∨ skip = true
  | .done => True
  | .fail _ => False

theorem steady_then {β : Type} (fl : Floats F) (n n2 : Nat) {Q : β → Prop} {g g2 : Token F → Sc β}
    (hg : ∀ t, Going t → Steady Q n n2 (g t) (g2 t)) (he : Stops Q (g .error) (g2 .error)) (hf : Stops Q (g .eof) (g2 .eof)) :
    Steady Q n n2 ((placeToken fl n).bind g) ((placeToken fl n2).bind g2) := by
  refine (steady_token fl n n2).bind hg fun t ht => ?_
  cases t with
  | error => exact he
  | eof => exact hf
  | _ => exact absurd trivial ht

theorem stops_fail : Stops (Moving (F := F)) (Sc.pure (.fail .syntaxError)) (Sc.pure (.fail .syntaxError)) :=
  ⟨_, by simp [Moving], rfl, rfl⟩

theorem steady_next (fl : Floats F) (n n2 : Nat) (st : List Bool) :
    Steady (Moving (F := F)) n n2 ((placeToken fl n).bind fun t => Sc.pure (.next t st false))
      ((placeToken fl n2).bind fun t => Sc.pure (.next t st false)) :=
  steady_then fl n n2 (fun t _ => Steady.pure _ _ _ _) ⟨_, by simp [Moving, Going], rfl, rfl⟩ ⟨_, by simp [Moving, Going], rfl, rfl⟩

theorem steady_states (fl : Floats F) (n n2 : Nat) (st : List Bool) :
    Steady Moving n n2 (placeStates fl n st) (placeStates fl n2 st) := by
  match st with
  | [] => exact Steady.pure _ _ _ _
  | true :: st =>
    simp only [placeStates]
    refine steady_then fl n n2 (fun t ht => ?_) stops_fail stops_fail
    cases t with
    | valueSeparator => exact steady_next fl n n2 _
    | _ => exact Steady.pure _ _ _ _
  | false :: st =>
    simp only [placeStates]
    refine steady_then fl n n2 (fun t ht => ?_) stops_fail stops_fail
    cases t with
    | valueSeparator =>
      refine steady_then fl n n2 (fun t ht => ?_) stops_fail stops_fail
      cases t with
      | str k =>
        refine steady_then fl n n2 (fun t ht => ?_) stops_fail stops_fail
        cases t with
        | nameSeparator => exact steady_next fl n n2 _
        | _ => exact Steady.pure _ _ _ _
      | _ => exact Steady.pure _ _ _ _
    | _ => exact Steady.pure _ _ _ _

theorem steady_step (fl : Floats F) (n n2 : Nat) (tok : Token F) (st : List Bool) (skip : Bool) :
    Steady Moving n n2 (placeStep fl n tok st skip) (placeStep fl n2 tok st skip) := by
  simp only [placeStep]
  cases skip with
  | true => exact steady_states fl n n2 st
  | false =>
    simp only [Bool.false_eq_true, if_false]
    cases tok with
    | beginObject =>
      refine steady_then fl n n2 (fun t ht => ?_) stops_fail stops_fail
      cases t with
      | endObject => exact steady_states fl n n2 st
      | str k =>
        refine steady_then fl n n2 (fun t ht => ?_) stops_fail stops_fail
        cases t with
        | nameSeparator => exact steady_next fl n n2 _
        | _ => exact Steady.pure _ _ _ _
      | _ => exact Steady.pure _ _ _ _
    | beginArray =>
      refine steady_then fl n n2 (fun t ht => ?_) ⟨_, by simp [Moving, Going], rfl, rfl⟩ ⟨_, by simp [Moving, Going], rfl, rfl⟩
      cases t with
      | endArray => exact steady_states fl n n2 st
      | _ => exact Steady.pure _ _ _ _
    | float x =>
      simp only
      split
      · exact steady_states fl n n2 st
      · exact Steady.pure _ _ _ _
    | litFalse => exact steady_states fl n n2 st
    | litNull => exact steady_states fl n n2 st
    | litTrue => exact steady_states fl n n2 st
    | int i => exact steady_states fl n n2 st
    | str s => exact steady_states fl n n2 st
    | uint u => exact steady_states fl n n2 st
    | _ => exact Steady.pure _ _ _ _

/-- after a token that is an error or the end, the next round ends without reading -/
theorem run_stops (fl : Floats F) (n k : Nat) {tok : Token F} (h : ¬ Going tok) (st : List Bool) :
    placeRun fl n k tok st false = Sc.pure (if k = 0 then .running else .bad .syntaxError) := by
  cases k with
  | zero => rfl
  | succ k =>
    rw [placeRun]
    cases tok with
    | error => rfl
    | eof => rfl
    | _ => exact absurd trivial h

/-- the loop, with `skip` only after a token of an end -/
theorem steady_run (fl : Floats F) (n n2 : Nat) : ∀ (k : Nat) (tok : Token F) (st : List Bool) (skip : Bool),
    Steady (fun _ => False) n n2 (placeRun fl n k tok st skip) (placeRun fl n2 k tok st skip)
  | 0, _, _, _ => Steady.pure _ _ _ _
  | k + 1, tok, st, skip => by
    simp only [placeRun]
    refine (steady_step fl n n2 tok st skip).bind (fun a _ => ?_) fun a ha => ?_
    · cases a with
      | next t st skip => exact steady_run fl n n2 k t st skip
      | done =>
        refine steady_then fl n n2 (fun t _ => ?_) ⟨_, fun h => h, rfl, rfl⟩ ⟨_, fun h => h, rfl, rfl⟩
        cases t <;> exact Steady.pure _ _ _ _
      | fail e => exact Steady.pure _ _ _ _
    · cases a with
      | next t st skip =>
        have hg : ¬ Going t := fun h => ha (.inl h)
        have hk : skip = false := by
          cases skip with
          | false => rfl
          | true => exact absurd (.inr rfl) ha
        subst hk
        exact ⟨_, fun h => h, run_stops fl n k hg st, run_stops fl n2 k hg st⟩
      | done => exact absurd trivial ha
      | fail e => exact ⟨_, fun h => h, rfl, rfl⟩

end Verif.Json
