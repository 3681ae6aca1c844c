import Verif.Json.PlaceRefine
import Verif.Json.Props

/-!
# C156: where a parse error is said to be
-/

namespace Verif.Json

open Spec

/-! ## Lemmas -/

theorem lines_count (s : Bytes) : lines s = s.count 0x0A := by
  induction s with
  | nil => rfl
  | cons c s ih =>
    rw [lines, ih, List.count_cons]
    by_cases h : c = 0x0A <;> simp [h]; omega

/-- how reading ends, and what `basic_json::parse` does -/
theorem placed_parse (fl : Floats F) (s : Bytes) :
    ((placed fl s).1 = .good ∧ ∃ v, parseAll fl s = .ok v) ∨
    ((placed fl s).1 = .bad .syntaxError ∧ parseAll fl s = .throws "parse_error.101") ∨
    ((placed fl s).1 = .bad .numberOverflow ∧ parseAll fl s = .throws "out_of_range.406") := by
  have ht := C110_terminates fl s
  rw [placed_verdict]
  revert ht
  rw [parseAll, parse]
  simp only
  generalize run fl (2 * s.length + 2) ⟨(scanFirst fl s).1, (scanFirst fl s).2, [], false, []⟩ = res
  cases res with
  | running => intro h; simp at h
  | fail e => cases e <;> simp [runVerdict]
  | done l evs =>
    simp only [runVerdict, if_true]
    cases (⟨Json.null, [], none⟩ : Dom F).onAll evs with
    | none => intro h; simp at h
    | some d => cases (scanToken fl l.pend).1 <;> simp

/-- where the first token ends -/
theorem first_end (fl : Floats F) (s : Bytes) {n : Nat} (hn : s.length < n) : (∃ b, At s b (placeFirst fl n (Src.start s)).2) ∧
    (s ≠ [] → (placeFirst fl n (Src.start s)).2.pend.length < s.length) := by
  have h := at_start s
  obtain ⟨hj, hc, ht, -⟩ := at_get h
  rw [start_pend] at hc ht
  rw [placeFirst]
  by_cases hb : (getc (Src.start s)).1 = some 0xEF
  · rw [if_pos hb]
    obtain ⟨t, rfl⟩ : ∃ t, s = 0xEF :: t := by
      rw [getc] at hb; simp only at hb; rw [hb] at hc
      cases s with
      | nil => cases hc
      | cons c t => cases hc; exact ⟨t, rfl⟩
    have ha : At (0xEF :: t) true (Src.start (0xEF :: t)).get := by
      rw [hc] at hj; exact hj.at_some
    have steady : Steady (Going (F := F)) n n (getc.bind fun c =>
      if c = some 0xBB then
        getc.bind fun c => if c = some 0xBF then placeToken fl n else Sc.pure .error
      else Sc.pure .error) (getc.bind fun c =>
      if c = some 0xBB then
        getc.bind fun c => if c = some 0xBF then placeToken fl n else Sc.pure .error
      else Sc.pure .error) := by
      refine Steady.get (m := n) (m2 := n) (by omega) (by omega) (fun c => .inl ?_) (.inl ⟨.error, by simp [Going], by simp, by simp⟩)
      refine Steady.ite (fun _ => ?_) fun _ => Steady.pure _ _ _ _
      refine Steady.get (m := n) (m2 := n) (by omega) (by omega) (fun c => .inl ?_) (.inl ⟨.error, by simp [Going], by simp, by simp⟩)
      exact Steady.ite (fun _ => steady_token fl n n) fun _ => Steady.pure _ _ _ _
    simp only [List.tail_cons] at ht
    obtain ⟨p1, -, p3, -⟩ := steady.post _ _ ha (by rw [ht]; simp only [List.length_cons] at hn; omega)
    rw [ht] at p3
    exact ⟨p1, fun _ => Nat.lt_succ_of_le p3⟩
  · rw [if_neg hb]
    obtain ⟨hu, hp, -⟩ := just_unget hj
    have e : (Src.start s).get.unget.pend = s := by
      rw [hp, hc, ht]
      cases s <;> rfl
    show (∃ b, At s b (placeToken fl n (Src.start s).get.unget).2) ∧ (s ≠ [] → (placeToken fl n (Src.start s).get.unget).2.pend.length < s.length)
    generalize (Src.start s).get.unget = r at hu e
    obtain ⟨p1, -, -, -⟩ := (steady_token fl n n).post s r hu (by rw [e]; exact hn)
    refine ⟨p1, fun hs => ?_⟩
    obtain ⟨-, h2⟩ := reads_space n s r hu (by rw [e]; exact hn)
    obtain ⟨q1, q2, q3, -⟩ := (steady_space n n).post s r hu (by rw [e]; exact hn)
    have hd : (skipSpace r.pend).length ≤ s.length := by rw [e]; exact (List.dropWhile_sublist _).length_le
    have hpos : 0 < s.length := List.length_pos_iff.2 hs
    have hsp : (placeSpace n r).2.pend.length < s.length := by
      rw [h2, List.length_tail]; omega
    rw [placeToken, Sc.bind]
    cases hc : (placeSpace n r).1 with
    | none => exact hsp
    | some c =>
      obtain ⟨-, -, t3, -⟩ := (steady_switch fl n n (some c)).post s _ (q2 (by rw [hc]; rfl)) (by rw [e] at q3; omega)
      omega

/-- the state of the lexer in the end -/
theorem placed_at (fl : Floats F) (s : Bytes) : (∃ b, At s b (placed fl s).2) ∧ (s ≠ [] → (placed fl s).2.pend.length < s.length) := by
  have hl : s.length < s.length + 1 := Nat.lt_succ_self _
  obtain ⟨h1, h2⟩ := first_end fl s hl
  obtain ⟨r, e, hg⟩ := first_at fl s hl
  rw [placed, Sc.bind]
  rw [e] at h1 h2 ⊢
  simp only at h1 h2 ⊢
  by_cases g : Going (scanFirst fl s).1
  · obtain ⟨ha, -, hr⟩ := hg g
    obtain ⟨p1, -, p3, -⟩ := (steady_run fl _ 0 (2 * s.length + 2) (scanFirst fl s).1 [] false).post s r ha hr
    exact ⟨p1, fun hs => by have := h2 hs; omega⟩
  · rw [run_stops fl _ _ g]
    exact ⟨h1, h2⟩

/-- more rounds change nothing once the loop has ended -/
theorem place_more (fl : Floats F) (n j : Nat) : ∀ (k : Nat) (tok : Token F) (st : List Bool) (skip : Bool) (r : Src),
    (placeRun fl n k tok st skip r).1 ≠ .running → placeRun fl n (k + j) tok st skip r = placeRun fl n k tok st skip r
  | 0, tok, st, skip, r, h => absurd rfl h
  | k + 1, tok, st, skip, r, h => by
    rw [show k + 1 + j = (k + j) + 1 by omega]
    rw [placeRun, Sc.bind] at h ⊢
    rw [placeRun, Sc.bind]
    cases hst : (placeStep fl n tok st skip r).1 with
    | next t st' skip' =>
      rw [hst] at h
      exact place_more fl n j k t st' skip' _ h
    | done => rfl
    | fail e => rfl

theorem placed_more (fl : Floats F) (s : Bytes) (j : Nat) :
    ((placeFirst fl (s.length + 1)).bind fun t => placeRun fl (s.length + 1) (2 * s.length + 2 + j) t [] false) (Src.start s) = placed fl s := by
  have : (placed fl s).1 ≠ .running := by
    rcases placed_parse fl s with ⟨h, -⟩ | ⟨h, -⟩ | ⟨h, -⟩ <;> rw [h] <;> simp
  rw [placed, Sc.bind] at this ⊢
  rw [Sc.bind]
  exact place_more fl _ j _ _ _ _ _ this

theorem sim_start {N : Nat} {s s2 : Bytes} (h : s2.take N = s.take N) : Sim N (Src.start s) (Src.start s2) :=
  ⟨rfl, rfl, rfl, rfl, rfl, by simpa [Src.start, Src.read] using h⟩

theorem first_loc (fl : Floats F) (s s2 : Bytes) {n n2 : Nat} (hn : s.length < n) (hn2 : s2.length < n2) {N : Nat}
    (hs : s2.take N = s.take N) (hN : (placeFirst fl n (Src.start s)).2.read ≤ N) :
    (placeFirst fl n2 (Src.start s2)).1 = (placeFirst fl n (Src.start s)).1 ∧
      Sim N (placeFirst fl n (Src.start s)).2 (placeFirst fl n2 (Src.start s2)).2 := by
  obtain ⟨hj, hc, ht, -⟩ := at_get (at_start s)
  obtain ⟨hj2, hc2, ht2, -⟩ := at_get (at_start s2)
  rw [start_pend] at hc ht hc2 ht2
  have hr1 : (Src.start s).get.read = 1 ∧ (Src.start s2).get.read = 1 := by
    refine ⟨?_, ?_⟩
    · cases s with
      | nil => rfl
      | cons c s => simp [Src.start, get_here, Src.read]
    · cases s2 with
      | nil => rfl
      | cons c s => simp [Src.start, get_here, Src.read]
  have steady : Steady (Going (F := F)) n n2 (getc.bind fun c =>
      if c = some 0xBB then
        getc.bind fun c => if c = some 0xBF then placeToken fl n else Sc.pure .error
      else Sc.pure .error) (getc.bind fun c =>
      if c = some 0xBB then
        getc.bind fun c => if c = some 0xBF then placeToken fl n2 else Sc.pure .error
      else Sc.pure .error) := by
    refine Steady.get (m := n) (m2 := n2) (by omega) (by omega) (fun c => .inl ?_) (.inl ⟨.error, by simp [Going], by simp, by simp⟩)
    refine Steady.ite (fun _ => ?_) fun _ => Steady.pure _ _ _ _
    refine Steady.get (m := n) (m2 := n2) (by omega) (by omega) (fun c => .inl ?_) (.inl ⟨.error, by simp [Going], by simp, by simp⟩)
    exact Steady.ite (fun _ => steady_token fl n n2) fun _ => Steady.pure _ _ _ _
  -- at least one byte is taken
  have h1N : 1 ≤ N := by
    refine Nat.le_trans ?_ hN
    rw [placeFirst]
    by_cases hb : (getc (Src.start s)).1 = some 0xEF
    · rw [if_pos hb]
      have ha : At s true (Src.start s).get := by
        rw [getc] at hb; simp only at hb; rw [hb] at hj; exact hj.at_some
      have := (steady.post s (Src.start s).get ha (by rw [ht, List.length_tail]; omega)).2.2.2
      rw [hr1.1] at this
      exact this
    · rw [if_neg hb]
      obtain ⟨hu, hp, hre⟩ := just_unget hj
      have e : (Src.start s).get.unget.pend = s := by
        rw [hp, hc, ht]; cases s <;> rfl
      have := ((steady_token fl n n).post s _ hu (by rw [e]; exact hn)).2.2.2
      rw [hre, hr1.1] at this
      exact this
  have hsim := (sim_start hs).get (by rw [hr1.1]; exact h1N)
  rw [placeFirst] at hN
  rw [placeFirst, placeFirst]
  have hcc : (getc (Src.start s2)).1 = (getc (Src.start s)).1 := hsim.cur
  rw [hcc]
  by_cases hb : (getc (Src.start s)).1 = some 0xEF
  · rw [if_pos hb] at hN
    rw [if_pos hb, if_pos hb]
    have ha : At s true (Src.start s).get := by
      rw [getc] at hb; simp only at hb; rw [hb] at hj; exact hj.at_some
    have ha2 : At s2 true (Src.start s2).get := by
      rw [← hcc, getc] at hb; simp only at hb; rw [hb] at hj2; exact hj2.at_some
    exact steady.loc s _ s2 _ ha ha2 (by rw [ht, List.length_tail]; omega) (by rw [ht2, List.length_tail]; omega) N hsim hN
  · rw [if_neg hb] at hN
    rw [if_neg hb, if_neg hb]
    obtain ⟨hu, hp, hre⟩ := just_unget hj
    obtain ⟨hu2, hp2, -⟩ := just_unget hj2
    have e : (Src.start s).get.unget.pend = s := by
      rw [hp, hc, ht]; cases s <;> rfl
    have e2 : (Src.start s2).get.unget.pend = s2 := by
      rw [hp2, hc2, ht2]; cases s2 <;> rfl
    exact (steady_token fl n n2).loc s _ s2 _ hu hu2 (by rw [e]; exact hn) (by rw [e2]; exact hn2) N (hsim.unget hre) hN

theorem placed_loc (fl : Floats F) (s s2 : Bytes) {N : Nat} (hs : s2.take N = s.take N) (hN : (placed fl s).2.read ≤ N) :
    (placed fl s2).1 = (placed fl s).1 ∧ Sim N (placed fl s).2 (placed fl s2).2 := by
  rw [← placed_more fl s2 (2 * s.length + 2)]
  rw [← placed_more fl s (2 * s2.length + 2)] at hN ⊢
  rw [show 2 * s2.length + 2 + (2 * s.length + 2) = 2 * s.length + 2 + (2 * s2.length + 2) by omega]
  generalize 2 * s.length + 2 + (2 * s2.length + 2) = k at hN ⊢
  have hl : s.length < s.length + 1 := Nat.lt_succ_self _
  have hl2 : s2.length < s2.length + 1 := Nat.lt_succ_self _
  obtain ⟨r, e, hg⟩ := first_at fl s hl
  obtain ⟨r2, e2, hg2⟩ := first_at fl s2 hl2
  rw [Sc.bind] at hN ⊢
  rw [Sc.bind]
  have hfirst : (placeFirst fl (s.length + 1) (Src.start s)).2.read ≤ N → (placeFirst fl (s2.length + 1) (Src.start s2)).1 =
      (placeFirst fl (s.length + 1) (Src.start s)).1 ∧ Sim N (placeFirst fl (s.length + 1) (Src.start s)).2
      (placeFirst fl (s2.length + 1) (Src.start s2)).2 := first_loc fl s s2 hl hl2 hs
  rw [e] at hN
  rw [e, e2] at hfirst ⊢
  simp only at hN hfirst ⊢
  by_cases g : Going (scanFirst fl s).1
  · obtain ⟨ha, -, hr⟩ := hg g
    have hrun := steady_run fl (s.length + 1) (s2.length + 1) k (scanFirst fl s).1 [] false
    have := (hrun.post s r ha hr).2.2.2
    obtain ⟨f1, f2⟩ := hfirst (by omega)
    rw [f1] at hg2 ⊢
    obtain ⟨ha2, -, hr2⟩ := hg2 g
    exact hrun.loc s r s2 r2 ha ha2 hr hr2 N f2 hN
  · rw [run_stops fl _ _ g] at hN ⊢
    obtain ⟨f1, f2⟩ := hfirst hN
    rw [f1, run_stops fl _ _ g]
    exact ⟨rfl, f2⟩

/-- the position told is that of the lexer in the end -/
theorem errorAt_some {fl : Floats F} {s : Bytes} {e : ParseError} {p : Position} :
    errorAt fl s = some (e, p) ↔ (placed fl s).1 = .bad e ∧ p = ⟨(placed fl s).2.total, (placed fl s).2.line + 1, (placed fl s).2.col⟩ := by
  rw [errorAt]
  obtain ⟨v, r⟩ := placed fl s
  cases v <;> simp [eq_comm]

/-! ## The theorems -/

/-- a floating-point type for the examples -/
private def nat : Floats Nat := ⟨fun _ => 0, fun _ => true, fun _ => []⟩


/-- **C156** (what holds) An error is told exactly when the text is not accepted, and it is of the kind of the exception that is thrown. -/
theorem C156_thrown (fl : Floats F) (s : Bytes) :
    (errorAt fl s = none ↔ ∃ v, parseAll fl s = .ok v) ∧
    ((∃ p, errorAt fl s = some (.syntaxError, p)) ↔ parseAll fl s = .throws "parse_error.101") ∧
    ((∃ p, errorAt fl s = some (.numberOverflow, p)) ↔ parseAll fl s = .throws "out_of_range.406") := by
  rw [errorAt]
  generalize hp : placed fl s = p
  obtain ⟨v, r⟩ := p
  rcases placed_parse fl s with ⟨h, w, h2⟩ | ⟨h, h2⟩ | ⟨h, h2⟩ <;> rw [hp] at h <;> simp only at h <;> subst h <;> rw [h2] <;> simp

/-- `[tru]`: refused at the fifth byte; `[true]` is accepted -/
example : errorAt nat [0x5B, 0x74, 0x72, 0x75, 0x5D] = some (.syntaxError, ⟨5, 1, 5⟩) ∧
    parseAll nat [0x5B, 0x74, 0x72, 0x75, 0x5D] = .throws "parse_error.101" ∧
    errorAt nat [0x5B, 0x74, 0x72, 0x75, 0x65, 0x5D] = none := ⟨by decide +kernel, rfl, by decide +kernel⟩

/-- **C156** (what holds) The byte told is one of the text, counted from one, or the one behind the last. -/
theorem C156_range (fl : Floats F) {s : Bytes} {e : ParseError} {p : Position} (h : errorAt fl s = some (e, p)) :
    1 ≤ p.byte ∧ p.byte ≤ s.length + 1 := by
  rw [errorAt_some] at h
  obtain ⟨-, rfl⟩ := h
  simp only
  obtain ⟨⟨b, ha⟩, hl⟩ := placed_at fl s
  by_cases hs : s = []
  · subst hs
    have : (placed fl []).2.total = 1 := rfl
    rw [this]; simp
  · have := hl hs
    generalize placed fl s = q at ha this
    obtain ⟨v, r⟩ := q
    cases ha with
    | here a rest cur hsr =>
      simp only [Src.pend] at this
      rw [hsr] at this ⊢
      simp at this ⊢
      exact ⟨this, by omega⟩
    | ended => simp
    | back a rest c hsr =>
      simp only [Src.pend] at this
      rw [hsr] at this ⊢
      simp at this ⊢
      exact ⟨by omega, by omega⟩
    | backEnd => simp; exact List.length_pos_iff.2 hs

/-- nothing at all is refused at the byte behind it; `x` at its only byte -/
example : errorAt nat [] = some (.syntaxError, ⟨1, 1, 1⟩) ∧ errorAt nat [0x78] = some (.syntaxError, ⟨1, 1, 1⟩) := by decide +kernel

/-- **C156** (what holds) The line told is that of the byte told: one more than the ends of lines in the text up to and with that byte. -/
theorem C156_line (fl : Floats F) {s : Bytes} {e : ParseError} {p : Position} (h : errorAt fl s = some (e, p)) :
    p.line = 1 + (s.take p.byte).count 0x0A := by
  rw [errorAt_some] at h
  obtain ⟨-, rfl⟩ := h
  simp only
  obtain ⟨⟨b, ha⟩, -⟩ := placed_at fl s
  rw [← lines_count]
  generalize placed fl s = q at ha
  obtain ⟨v, r⟩ := q
  cases ha with
  | here a rest cur hsr => rw [hsr]; simp; omega
  | ended => simp [List.take_of_length_le]; omega
  | back a rest c hsr => rw [hsr]; simp; omega
  | backEnd => simp; omega

/-- `[`, end of line, `1`, end of line, ` ;]`: the second byte of the third line -/
example : errorAt nat [0x5B, 0x0A, 0x31, 0x0A, 0x20, 0x3B, 0x5D] = some (.syntaxError, ⟨6, 3, 2⟩) ∧
    1 + ([0x5B, 0x0A, 0x31, 0x0A, 0x20, 0x3B, 0x5D].take 6).count 0x0A = 3 := by decide +kernel

/-- **C156** (what holds) If no end of a line follows directly on the byte told, the column told is the number of bytes behind the last end
of a line in the text up to and with that byte; at the end of the text it is one more. -/
theorem C156_column_partial (fl : Floats F) {s : Bytes} {e : ParseError} {p : Position} (h : errorAt fl s = some (e, p))
    (hn : s[p.byte]? ≠ some 0x0A) :
    p.column = ((s.take p.byte).reverse.takeWhile fun c => decide (c ≠ 0x0A)).length + (if p.byte = s.length + 1 then 1 else 0) := by
  rw [errorAt_some] at h
  obtain ⟨-, rfl⟩ := h
  simp only at hn ⊢
  obtain ⟨⟨b, ha⟩, -⟩ := placed_at fl s
  generalize placed fl s = q at ha hn
  obtain ⟨v, r⟩ := q
  show _ = lastLine _ + _
  cases ha with
  | here a rest cur hsr => rw [hsr]; simp; omega
  | ended => simp [List.take_of_length_le]
  | back a rest c hsr =>
    simp only at hn ⊢
    rw [hsr] at hn ⊢
    simp at hn ⊢
    simp only [hn, if_false]
    rw [if_neg (by omega)]
    omega
  | backEnd => simp

/-- both happen -/
example : errorAt nat [0x5B, 0x31, 0x20, 0x32, 0x0A, 0x5D] = some (.syntaxError, ⟨4, 1, 0⟩) ∧
    errorAt nat [0x5B, 0x31, 0x20, 0x32, 0x5D] = some (.syntaxError, ⟨4, 1, 4⟩) := by decide +kernel

/-- the end of a line in the middle of a text that is cut off: the column behind the last byte -/
example : errorAt nat [0x5B, 0x0A, 0x31] = some (.syntaxError, ⟨4, 2, 2⟩) ∧ ([0x5B, 0x0A, 0x31] : Bytes)[4]? ≠ some 0x0A := by
  decide +kernel

/-- **C156** (what holds) The column told is that number or 0. -/
theorem C156_column (fl : Floats F) {s : Bytes} {e : ParseError} {p : Position} (h : errorAt fl s = some (e, p)) :
    p.column = 0 ∨ p.column = ((s.take p.byte).reverse.takeWhile fun c => decide (c ≠ 0x0A)).length +
      (if p.byte = s.length + 1 then 1 else 0) := by
  by_cases hn : s[p.byte]? = some 0x0A
  · rw [errorAt_some] at h
    obtain ⟨-, rfl⟩ := h
    simp only at hn ⊢
    obtain ⟨⟨b, ha⟩, -⟩ := placed_at fl s
    generalize placed fl s = q at ha hn
    obtain ⟨v, r⟩ := q
    show _ ∨ _ = lastLine _ + _
    cases ha with
    | here a rest cur hsr => right; rw [hsr]; simp; omega
    | ended => simp [List.take_of_length_le]
    | back a rest c hsr =>
      left
      simp only at hn ⊢
      rw [hsr] at hn
      simp at hn
      simp [hn]
    | backEnd => simp
  · exact .inr (C156_column_partial fl h hn)

example : errorAt nat [0x5B, 0x0A, 0x31, 0x20, 0x32] = some (.syntaxError, ⟨5, 2, 3⟩) ∧
    (([0x5B, 0x0A, 0x31, 0x20, 0x32].take 5).reverse.takeWhile fun c => decide (c ≠ 0x0A)).length = 3 := by decide +kernel

/-- **C156** (what does not hold) In `[1 2`, end of line, `]` the error is at the fourth byte, in the first line; the column told is 0
and not 4: putting back an end of a line does not restore the column. -/
theorem C156_column_fails (fl : Floats F) : ∃ (s : Bytes) (p : Position), errorAt fl s = some (.syntaxError, p) ∧ p.byte = 4 ∧ p.line = 1 ∧
    ((s.take p.byte).reverse.takeWhile fun c => decide (c ≠ 0x0A)).length = 4 ∧ p.column = 0 :=
  ⟨[0x5B, 0x31, 0x20, 0x32, 0x0A, 0x5D], ⟨4, 1, 0⟩, by
    simp [errorAt, placed, Src.start, placeFirst, getc, Src.get, Src.unget, placeToken, placeSpace, Sc.bind, Sc.pure, placeSwitch, isSpace,
      placeRun, placeStep, placeStates, placeNumber, placeAny1, isDigit, placeDone, numDone, digitsValue], rfl, rfl, rfl, rfl⟩

/-- **C156** (what holds) The error and its position depend on the text only up to the byte told and the one behind it: every other text that
begins with the same bytes is refused in the same way. -/
theorem C156_local (fl : Floats F) {s s2 : Bytes} {e : ParseError} {p : Position} (h : errorAt fl s = some (e, p))
    (hs : s2.take (p.byte + 1) = s.take (p.byte + 1)) : errorAt fl s2 = some (e, p) := by
  rw [errorAt_some] at h ⊢
  obtain ⟨hb, rfl⟩ := h
  simp only at hs
  obtain ⟨h1, h2⟩ := placed_loc fl s s2 hs (by rw [Src.read]; split <;> omega)
  rw [h1]
  exact ⟨hb, by rw [h2.total, h2.line, h2.col]⟩

/-- `[1 2`, and anything: the fifth byte is the last that is looked at -/
example : errorAt nat [0x5B, 0x31, 0x20, 0x32, 0x5D] = errorAt nat [0x5B, 0x31, 0x20, 0x32, 0x5D, 0x7B, 0x0A] := by decide +kernel

/-- the byte behind the one told matters: a digit there belongs to the number -/
example : errorAt nat [0x5B, 0x31, 0x20, 0x32, 0x5D] ≠ errorAt nat [0x5B, 0x31, 0x20, 0x32, 0x33, 0x5D] := by decide +kernel

/-- **C156** (what holds) No error is told too early: if the first `k` bytes of a text can be continued to one that is accepted, the byte told is
not before the `k`th. -/
theorem C156_viable (fl : Floats F) {s u : Bytes} {k : Nat} {v : Json F} {e : ParseError} {p : Position} (h : errorAt fl s = some (e, p))
    (hk : k ≤ s.length) (hu : parseAll fl (s.take k ++ u) = .ok v) : k ≤ p.byte := by
  refine Nat.le_of_not_lt fun hlt => ?_
  have := C156_local fl (s2 := s.take k ++ u) h (by
    rw [List.take_append_of_le_length (by rw [List.length_take]; omega), List.take_take, Nat.min_eq_left (by omega)])
  have h0 := (C156_thrown fl (s.take k ++ u)).1.2 ⟨v, hu⟩
  rw [h0] at this
  cases this

/-- `{"a" 1}`: `{"a"` can be continued, and the error is behind it -/
example : errorAt nat [0x7B, 0x22, 0x61, 0x22, 0x20, 0x31, 0x7D] = some (.syntaxError, ⟨6, 1, 6⟩) ∧
    ∃ v, parseAll nat ([0x7B, 0x22, 0x61, 0x22, 0x20, 0x31, 0x7D].take 5 ++ [0x3A, 0x31, 0x7D]) = .ok v :=
  ⟨by decide +kernel, (C156_thrown _ _).1.1 (by decide +kernel)⟩

/-- **C156** (what holds) An error told before the last byte is final: whatever is added to the text, it is refused in the same way, with the error
at the same place. -/
theorem C156_before_end (fl : Floats F) {s : Bytes} {e : ParseError} {p : Position} (h : errorAt fl s = some (e, p)) (hp : p.byte < s.length)
    (u : Bytes) : errorAt fl (s ++ u) = some (e, p) ∧ ∀ v, parseAll fl (s ++ u) ≠ .ok v := by
  have := C156_local fl (s2 := s ++ u) h (by rw [List.take_append_of_le_length (by omega)])
  refine ⟨this, fun v hv => ?_⟩
  rw [(C156_thrown fl (s ++ u)).1.2 ⟨v, hv⟩] at this
  cases this

/-- `}` and more -/
example : errorAt nat [0x7D, 0x20] = some (.syntaxError, ⟨1, 1, 1⟩) ∧
    errorAt nat [0x7D, 0x20, 0x31] = some (.syntaxError, ⟨1, 1, 1⟩) := by decide +kernel

/-- **C156** (what holds) A text that has only been cut off is refused at its end: if it is refused and can be continued to one that is accepted,
the byte told is the last or the one behind it. -/
theorem C156_cut (fl : Floats F) {s u : Bytes} {v : Json F} {e : ParseError} {p : Position} (h : errorAt fl s = some (e, p))
    (hu : parseAll fl (s ++ u) = .ok v) : p.byte = s.length ∨ p.byte = s.length + 1 := by
  have h1 := C156_viable fl (k := s.length) (u := u) (v := v) h (Nat.le_refl _) (by rw [List.take_length]; exact hu)
  have h2 := (C156_range fl h).2
  omega

/-- `[1,` -/
example : errorAt nat [0x5B, 0x31, 0x2C] = some (.syntaxError, ⟨4, 1, 4⟩) ∧
    ∃ v, parseAll nat ([0x5B, 0x31, 0x2C] ++ [0x32, 0x5D]) = .ok v :=
  ⟨by decide +kernel, (C156_thrown _ _).1.1 (by decide +kernel)⟩

end Verif.Json
