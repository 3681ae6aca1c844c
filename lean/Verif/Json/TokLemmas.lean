import Verif.Json.NumLemmas

/-!
# Lemmas about the lexer: tokens
-/

namespace Verif.Json
open Spec

/-! ## Where a number ends -/

theorem Stop.head {P : Nat → Prop} {c : Nat} {s s' : Bytes} (h : Stop P (c :: s)) :
    Stop P (c :: s') := Stop.cons.2 (Stop.cons.1 h)

theorem ExpStop.change {P : Nat → Prop} {e : Bytes} {c : Nat} {s s' : Bytes}
    (h : ExpStop P e (c :: s)) : ExpStop P e (c :: s') := by
  rcases h with ⟨h1, h2⟩ | ⟨m, sg, ds, h1, h2, h3, h4, h5⟩
  · exact .inl ⟨h1, h2.head⟩
  · exact .inr ⟨m, sg, ds, h1, h2, h3, h4, h5.head⟩

theorem TailStop.change {P : Nat → Prop} {f e : Bytes} {c : Nat} {s s' : Bytes}
    (h : TailStop P f e (c :: s)) : TailStop P f e (c :: s') := by
  rcases h with ⟨h1, h2⟩ | ⟨ds, h1, h2, h3⟩
  · exact .inl ⟨h1, h2.change⟩
  · exact .inr ⟨ds, h1, h2, h3.change⟩

theorem ExpStop.of_nil {P : Nat → Prop} {e : Bytes} (h : Exp e) : ExpStop P e [] := by
  rcases h with h | ⟨m, sg, ds, h1, h2, h3, h4⟩
  · exact .inl ⟨h, .nil⟩
  · exact .inr ⟨m, sg, ds, h1, h2, h3, h4, .nil⟩

theorem TailStop.of_nil {P : Nat → Prop} {f e : Bytes} (hf : Frac f) (h : Exp e) :
    TailStop P f e [] := by
  rcases hf with hf | ⟨ds, h1, h2⟩
  · exact .inl ⟨hf, .of_nil h⟩
  · exact .inr ⟨ds, h1, h2, .of_nil h⟩

theorem Digits.snoc {ds : Bytes} {c : Nat} (h : Digits ds) (hc : Digit c) : Digits (ds ++ [c]) := by
  refine ⟨by simp, ?_⟩
  intro x hx
  simp only [List.mem_append, List.mem_singleton] at hx
  rcases hx with hx | rfl
  · exact h.2 x hx
  · exact hc

theorem Digits.zero : Digits [0x30] := ⟨by simp, by simp [Digit]⟩

theorem NumText.head {t : Bytes} (h : NumText t) : ∃ c s, t = c :: s ∧ (c = 0x2D ∨ Digit c) := by
  obtain ⟨sg, i, f, e, h1, h2, _, _, rfl⟩ := h
  obtain ⟨d, ds, rfl, hd⟩ := IntPart.head h2
  rcases h1 with rfl | rfl
  · exact ⟨d, ds ++ f ++ e, by simp, .inr hd⟩
  · exact ⟨0x2D, d :: (ds ++ f ++ e), by simp, .inl rfl⟩

theorem tailStop_munch {sg i f e r : Bytes} (hs : Sign sg) (hi : IntPart i)
    (h : TailStop (goesOn i) f e r) : Munch (sg ++ i ++ f ++ e) r := by
  rintro c r' u rfl hn
  obtain ⟨d, s, hd, hd'⟩ := NumText.head hn
  have h1 : numInit d s = some (tailType (signType sg) f e, sg ++ i ++ f ++ e, c :: u) :=
    (numInit_iff hd').2 ⟨sg, i, f, e, hs, hi, h.change, by rw [← hd], rfl, rfl⟩
  obtain ⟨sg', i', f', e', hs', hi', hf', he', ht⟩ := hn
  have h2 : numInit d s = some (tailType (signType sg') f' e', sg' ++ i' ++ f' ++ e', []) :=
    (numInit_iff hd').2 ⟨sg', i', f', e', hs', hi', .of_nil hf' he', by rw [← hd, ht]; simp,
      rfl, rfl⟩
  rw [h1] at h2
  simp at h2

theorem munch_tailStop {sg i f e r : Bytes} (hs : Sign sg) (hi : IntPart i) (hf : Frac f)
    (he : Exp e) (h : Munch (sg ++ i ++ f ++ e) r) : TailStop (goesOn i) f e r := by
  have expo : ∀ m sg' ds, (m = 0x65 ∨ m = 0x45) → (sg' = [] ∨ sg' = [0x2B] ∨ sg' = [0x2D]) →
      Digits ds → e = m :: (sg' ++ ds) → Stop Digit r := by
    rintro m sg' ds h1 h2 h3 rfl c r' rfl hc
    exact h c r' [] rfl ⟨sg, i, f, m :: (sg' ++ (ds ++ [c])), hs, hi, hf,
      .inr ⟨m, sg', ds ++ [c], h1, h2, Digits.snoc h3 hc, rfl⟩, by simp⟩
  have start : ∀ c r', e = [] → r = c :: r' → ¬ IsE c := by
    rintro c r' rfl rfl hc
    exact h c r' [0x30] rfl ⟨sg, i, f, [c, 0x30], hs, hi, hf,
      .inr ⟨c, [], [0x30], hc, .inl rfl, Digits.zero, rfl⟩, by simp⟩
  rcases hf with rfl | ⟨ds, hd, rfl⟩
  · refine .inl ⟨rfl, ?_⟩
    rcases he with rfl | ⟨m, sg', ds, h1, h2, h3, h4⟩
    · refine .inl ⟨rfl, ?_⟩
      intro c r' hr
      rintro ((hc | hc) | hc)
      · subst hr
        refine h c r' [] rfl ⟨sg, i ++ [c], [], [], hs, ?_, .inl rfl, .inl rfl, by simp⟩
        rcases hi with hi | ⟨hi, hi'⟩
        · exact absurd hi hc.1
        · refine .inr ⟨Digits.snoc hi hc.2, ?_⟩
          rcases i with _ | ⟨d, ds⟩
          · exact absurd rfl hi.1
          · simpa using hi'
      · subst hr; subst hc
        exact h 0x2E r' [0x30] rfl ⟨sg, i, [0x2E, 0x30], [], hs, hi,
          .inr ⟨[0x30], Digits.zero, rfl⟩, .inl rfl, by simp⟩
      · exact start c r' rfl hr hc
    · exact .inr ⟨m, sg', ds, h1, h2, h3, h4, expo m sg' ds h1 h2 h3 h4⟩
  · refine .inr ⟨ds, hd, rfl, ?_⟩
    rcases he with rfl | ⟨m, sg', ds', h1, h2, h3, h4⟩
    · refine .inl ⟨rfl, ?_⟩
      intro c r' hr
      rintro (hc | hc)
      · subst hr
        exact h c r' [] rfl ⟨sg, i, 0x2E :: (ds ++ [c]), [], hs, hi,
          .inr ⟨ds ++ [c], Digits.snoc hd hc, rfl⟩, .inl rfl, by simp⟩
      · exact start c r' rfl hr hc
    · exact .inr ⟨m, sg', ds', h1, h2, h3, h4, expo m sg' ds' h1 h2 h3 h4⟩

/-- numbers consist of digits, points, signs and exponent marks -/
theorem NumText.chars {t : Bytes} (h : NumText t) : ∀ c ∈ t, ¬ NotNumeric c := by
  obtain ⟨sg, i, f, e, h1, h2, h3, h4, rfl⟩ := h
  have dig : ∀ c, Digit c → ¬ NotNumeric c := fun c h h' => h'.1 h
  have oth : ∀ c, (c = 0x2E ∨ c = 0x65 ∨ c = 0x45 ∨ c = 0x2B ∨ c = 0x2D) → ¬ NotNumeric c := by
    intro c h h'; unfold NotNumeric at h'; omega
  intro c hc
  simp only [List.mem_append] at hc
  rcases hc with ((hc | hc) | hc) | hc
  · rcases h1 with rfl | rfl
    · cases hc
    · simp only [List.mem_singleton] at hc; exact oth c (by omega)
  · rcases h2 with rfl | ⟨h2, _⟩
    · simp only [List.mem_singleton] at hc; subst hc; exact dig _ (by unfold Digit; omega)
    · exact dig c (h2.2 c hc)
  · rcases h3 with rfl | ⟨ds, h3, rfl⟩
    · cases hc
    · simp only [List.mem_cons] at hc
      rcases hc with rfl | hc
      · exact oth _ (by omega)
      · exact dig c (h3.2 c hc)
  · rcases h4 with rfl | ⟨m, sg', ds, h5, h6, h7, rfl⟩
    · cases hc
    · simp only [List.mem_cons, List.mem_append] at hc
      rcases hc with rfl | hc | hc
      · exact oth _ (by omega)
      · rcases h6 with rfl | rfl | rfl
        · cases hc
        · simp only [List.mem_singleton] at hc; exact oth c (by omega)
        · simp only [List.mem_singleton] at hc; exact oth c (by omega)
      · exact dig c (h7.2 c hc)

theorem munch_nil {t : Bytes} : Munch t [] := fun _ _ _ h => by cases h

theorem munch_of_notNumeric {t r : Bytes} {c : Nat} (h : NotNumeric c) : Munch t (c :: r) := by
  rintro c' r' u e hn
  cases e
  exact NumText.chars hn c (by simp) h

/-! ## The values of digits -/

theorem digitsValue_eq (ds : Bytes) : digitsValue ds = decimal ds := by
  have : ∀ (ds : Bytes) (n : Nat), ds.foldl (fun n d => n * 10 + (d - 0x30)) n =
      n * 10 ^ ds.length + decimal ds := by
    intro ds
    induction ds with
    | nil => intro n; simp [decimal]
    | cons d ds ih =>
      intro n
      rw [List.foldl_cons, ih, decimal, List.length_cons, Nat.pow_succ, Nat.add_mul, Nat.mul_assoc,
        Nat.mul_comm 10 (10 ^ ds.length), Nat.add_assoc]
  unfold digitsValue
  rw [this]; simp

/-! ## Tokens and their texts -/

/-- the text of a token that is not the end and not an error -/
inductive TokText (fl : Floats F) : Token F → Bytes → Prop
  | beginArray : TokText fl .beginArray [0x5B]
  | endArray : TokText fl .endArray [0x5D]
  | beginObject : TokText fl .beginObject [0x7B]
  | endObject : TokText fl .endObject [0x7D]
  | nameSeparator : TokText fl .nameSeparator [0x3A]
  | valueSeparator : TokText fl .valueSeparator [0x2C]
  | litTrue : TokText fl .litTrue [0x74, 0x72, 0x75, 0x65]
  | litFalse : TokText fl .litFalse [0x66, 0x61, 0x6C, 0x73, 0x65]
  | litNull : TokText fl .litNull [0x6E, 0x75, 0x6C, 0x6C]
  | str {t s : Bytes} : StrChars t s → TokText fl (.str s) (0x22 :: (t ++ [0x22]))
  | uint {i : Bytes} : IntPart i → decimal i < 2 ^ 64 → TokText fl (.uint (decimal i)) i
  | int {i : Bytes} : IntPart i → decimal i ≤ 2 ^ 63 →
      TokText fl (.int (-(decimal i : Int))) (0x2D :: i)
  | float {sg i f e : Bytes} : Sign sg → IntPart i → Frac f → Exp e →
      (f ≠ [] ∨ e ≠ [] ∨ (sg = [] ∧ 2 ^ 64 ≤ decimal i) ∨ (sg = [0x2D] ∧ 2 ^ 63 < decimal i)) →
      TokText fl (.float (fl.toFloat (sg ++ i ++ f ++ e))) (sg ++ i ++ f ++ e)

/-- the tokens that are numbers -/
def Token.isNum : Token F → Bool
  | .uint _ | .int _ | .float _ => true
  | _ => false

theorem numDone_text (fl : Floats F) {sg i f e : Bytes} (hs : Sign sg) (hi : IntPart i)
    (hf : Frac f) (he : Exp e) :
    TokText fl (numDone fl (tailType (signType sg) f e) (sg ++ i ++ f ++ e)) (sg ++ i ++ f ++ e) ∧
      (numDone fl (tailType (signType sg) f e) (sg ++ i ++ f ++ e)).isNum = true := by
  by_cases hfe : f = [] ∧ e = []
  · obtain ⟨rfl, rfl⟩ := hfe
    simp only [tailType, and_self, if_true, List.append_nil]
    rcases hs with rfl | rfl
    · simp only [signType, if_true, List.nil_append, numDone, digitsValue_eq]
      split
      · next h => exact ⟨.uint hi h, rfl⟩
      · next h =>
        refine ⟨?_, rfl⟩
        have := TokText.float (fl := fl) (.inl rfl) hi hf he
          (.inr (.inr (.inl ⟨rfl, by omega⟩)))
        simpa using this
    · simp only [signType, List.cons_ne_nil, if_false, List.cons_append, List.nil_append, numDone,
        digitsValue_eq, List.tail_cons]
      split
      · next h => exact ⟨.int hi h, rfl⟩
      · next h =>
        refine ⟨?_, rfl⟩
        have := TokText.float (fl := fl) (.inr rfl) hi hf he
          (.inr (.inr (.inr ⟨rfl, by omega⟩)))
        simpa using this
  · rw [tailType, if_neg hfe]
    refine ⟨.float hs hi hf he ?_, rfl⟩
    by_cases hf0 : f = []
    · exact .inr (.inl (fun h => hfe ⟨hf0, h⟩))
    · exact .inl hf0

/-- the token of a number is determined by its text -/
theorem numDone_of_text (fl : Floats F) {tok : Token F} {t : Bytes} (h : TokText fl tok t)
    (hn : tok.isNum = true) : ∃ sg i f e, Sign sg ∧ IntPart i ∧ Frac f ∧ Exp e ∧
      t = sg ++ i ++ f ++ e ∧ numDone fl (tailType (signType sg) f e) t = tok := by
  cases h with
  | uint hi h =>
    refine ⟨[], _, [], [], .inl rfl, hi, .inl rfl, .inl rfl, by simp, ?_⟩
    simp only [tailType, and_self, if_true, signType, numDone, digitsValue_eq]
    rw [if_pos h]
  | int hi h =>
    refine ⟨[0x2D], _, [], [], .inr rfl, hi, .inl rfl, .inl rfl, by simp, ?_⟩
    simp only [tailType, and_self, if_true, signType, numDone, digitsValue_eq, List.tail_cons,
      List.cons_ne_nil, if_false]
    rw [if_pos h]
  | float hs hi hf he h =>
    rename_i sg i f e
    refine ⟨sg, i, f, e, hs, hi, hf, he, rfl, ?_⟩
    by_cases hfe : f = [] ∧ e = []
    · obtain ⟨rfl, rfl⟩ := hfe
      simp only [List.append_nil] at *
      rcases hs with rfl | rfl
      · simp only [tailType, and_self, if_true, signType, numDone, digitsValue_eq, List.nil_append]
        rw [if_neg]
        simp at h; omega
      · simp only [tailType, and_self, if_true, signType, numDone, digitsValue_eq, List.tail_cons,
          List.cons_ne_nil, if_false, List.cons_append, List.nil_append]
        rw [if_neg]
        simp at h; omega
    · rw [tailType, if_neg hfe]; rfl
  | _ => simp [Token.isNum] at hn

theorem isSpace_iff {c : Nat} : isSpace c = true ↔ c = 0x20 ∨ c = 0x09 ∨ c = 0x0A ∨ c = 0x0D := by
  simp [isSpace]

theorem scan_ws (fl : Floats F) {w : Bytes} (hw : Ws w) (s : Bytes) :
    scanToken fl (w ++ s) = scanToken fl s := by
  induction w with
  | nil => rfl
  | cons c w ih =>
    rw [List.cons_append, scanToken, if_pos (isSpace_iff.2 (hw c (by simp)))]
    exact ih (fun c h => hw c (by simp [h]))

theorem scanLiteral_text {tok : Token F} : ∀ (ls s r : Bytes) (t : Token F),
    t ≠ .error → (scanLiteral tok ls s = (t, r) ↔ t = tok ∧ s = ls ++ r) := by
  intro ls
  induction ls with
  | nil =>
    intro s r t ht
    simp only [scanLiteral, Prod.mk.injEq, List.nil_append, eq_comm]
  | cons l ls ih =>
    intro s r t ht
    rcases s with _ | ⟨c, s⟩
    · simp only [scanLiteral, Prod.mk.injEq]
      constructor
      · rintro ⟨h, _⟩; exact absurd h.symm ht
      · rintro ⟨_, h⟩; cases h
    · simp only [scanLiteral]
      split
      · next hc => rw [ih s r t ht]; simp [hc]
      · next hc =>
        simp only [Prod.mk.injEq, List.cons_append, List.cons.injEq]
        constructor
        · rintro ⟨h, _⟩; exact absurd h.symm ht
        · rintro ⟨_, h, _⟩; exact absurd h hc

/-- **what a token is read from**: soundness of `scan` -/
theorem scan_sound (fl : Floats F) : ∀ (s : Bytes) (tok : Token F) (l : Lex),
    scanToken fl s = (tok, l) → tok ≠ .error → tok ≠ .eof →
    ∃ w t, Ws w ∧ s = w ++ t ++ l.pend ∧ TokText fl tok t ∧ l.over = tok.isNum ∧
      (tok.isNum = true → Munch t l.pend) := by
  intro s
  induction s with
  | nil =>
    intro tok l h _ h2
    simp only [scanToken, Prod.mk.injEq] at h
    exact absurd h.1.symm h2
  | cons c s ih =>
    intro tok l h h1 h2
    rw [scanToken] at h
    by_cases hsp : isSpace c = true
    · rw [if_pos hsp] at h
      obtain ⟨w, t, hw, e, ht, ho, hm⟩ := ih tok l h h1 h2
      refine ⟨c :: w, t, ?_, by rw [e]; rfl, ht, ho, hm⟩
      intro x hx
      simp only [List.mem_cons] at hx
      rcases hx with rfl | hx
      · exact isSpace_iff.1 hsp
      · exact hw x hx
    rw [if_neg hsp] at h
    refine ⟨[], ?_⟩
    have hw : Ws [] := fun _ h => by cases h
    have single : ∀ (tk : Token F), TokText fl tk [c] → tk.isNum = false →
        (tk, (⟨s, false⟩ : Lex)) = (tok, l) →
        ∃ t, Ws [] ∧ c :: s = [] ++ t ++ l.pend ∧ TokText fl tok t ∧ l.over = tok.isNum ∧
          (tok.isNum = true → Munch t l.pend) := by
      intro tk htk hnum e
      simp only [Prod.mk.injEq] at e
      obtain ⟨rfl, rfl⟩ := e
      exact ⟨[c], hw, rfl, htk, hnum.symm, fun h => by rw [hnum] at h; cases h⟩
    have literal : ∀ (tk : Token F) (ls : Bytes), TokText fl tk (c :: ls) → tk.isNum = false →
        (let r := scanLiteral tk ls s; (r.1, (⟨r.2, false⟩ : Lex))) = (tok, l) →
        ∃ t, Ws [] ∧ c :: s = [] ++ t ++ l.pend ∧ TokText fl tok t ∧ l.over = tok.isNum ∧
          (tok.isNum = true → Munch t l.pend) := by
      intro tk ls htk hnum e
      simp only [Prod.mk.injEq] at e
      obtain ⟨e1, rfl⟩ := e
      obtain ⟨rfl, e⟩ := (scanLiteral_text ls s (scanLiteral tk ls s).2 tok h1).1
        (by rw [← e1])
      exact ⟨c :: ls, hw, congrArg (c :: ·) e, htk, hnum.symm,
        fun h => by rw [hnum] at h; cases h⟩
    by_cases hc : c = 0x5B
    · rw [if_pos hc] at h; subst hc; exact single _ .beginArray rfl h
    rw [if_neg hc] at h
    by_cases hc : c = 0x5D
    · rw [if_pos hc] at h; subst hc; exact single _ .endArray rfl h
    rw [if_neg hc] at h
    by_cases hc : c = 0x7B
    · rw [if_pos hc] at h; subst hc; exact single _ .beginObject rfl h
    rw [if_neg hc] at h
    by_cases hc : c = 0x7D
    · rw [if_pos hc] at h; subst hc; exact single _ .endObject rfl h
    rw [if_neg hc] at h
    by_cases hc : c = 0x3A
    · rw [if_pos hc] at h; subst hc; exact single _ .nameSeparator rfl h
    rw [if_neg hc] at h
    by_cases hc : c = 0x2C
    · rw [if_pos hc] at h; subst hc; exact single _ .valueSeparator rfl h
    rw [if_neg hc] at h
    by_cases hc : c = 0x74
    · rw [if_pos hc] at h; subst hc; exact literal _ _ .litTrue rfl h
    rw [if_neg hc] at h
    by_cases hc : c = 0x66
    · rw [if_pos hc] at h; subst hc; exact literal _ _ .litFalse rfl h
    rw [if_neg hc] at h
    by_cases hc : c = 0x6E
    · rw [if_pos hc] at h; subst hc; exact literal _ _ .litNull rfl h
    rw [if_neg hc] at h
    by_cases hc : c = 0x22
    · rw [if_pos hc] at h; subst hc
      rcases hs : scanString s with _ | ⟨buf, s'⟩
      · rw [hs] at h; simp only [Prod.mk.injEq] at h; exact absurd h.1.symm h1
      · rw [hs] at h
        simp only [Prod.mk.injEq] at h
        obtain ⟨rfl, rfl⟩ := h
        obtain ⟨t, ht, rfl⟩ := scanString_iff.1 hs
        exact ⟨0x22 :: (t ++ [0x22]), hw, by simp, .str ht, rfl, fun h => by cases h⟩
    rw [if_neg hc] at h
    by_cases hc : c = 0x2D ∨ isDigit c = true
    · rw [if_pos hc] at h
      rw [isDigit_iff] at hc
      rcases hn : numInit c s with _ | ⟨ty, buf, s'⟩
      · rw [hn] at h; simp only [Prod.mk.injEq] at h; exact absurd h.1.symm h1
      · rw [hn] at h
        simp only [Prod.mk.injEq] at h
        obtain ⟨rfl, rfl⟩ := h
        obtain ⟨sg, i, f, e, hs, hi, ht, e1, rfl, rfl⟩ := (numInit_iff hc).1 hn
        have := numDone_text fl hs hi ht.frac ht.exp
        exact ⟨sg ++ i ++ f ++ e, hw, e1, this.1, this.2.symm, fun _ => tailStop_munch hs hi ht⟩
    rw [if_neg hc] at h
    by_cases hc : c = 0
    · rw [if_pos hc] at h; simp only [Prod.mk.injEq] at h; exact absurd h.1.symm h2
    rw [if_neg hc] at h
    simp only [Prod.mk.injEq] at h
    exact absurd h.1.symm h1

/-- **which token a text is read as**: completeness of `scan` -/
theorem scan_complete (fl : Floats F) {tok : Token F} {w t r : Bytes} (hw : Ws w)
    (ht : TokText fl tok t) (hm : tok.isNum = true → Munch t r) :
    scanToken fl (w ++ t ++ r) = (tok, ⟨r, tok.isNum⟩) := by
  rw [List.append_assoc, scan_ws fl hw]
  by_cases hn : tok.isNum = true
  · rw [hn]
    obtain ⟨sg, i, f, e, hs, hi, hf, he, rfl, htok⟩ := numDone_of_text fl ht hn
    obtain ⟨c, s, hc, hd⟩ := NumText.head ⟨sg, i, f, e, hs, hi, hf, he, rfl⟩
    have h1 : numInit c (s ++ r) = some (tailType (signType sg) f e, sg ++ i ++ f ++ e, r) :=
      (numInit_iff hd).2 ⟨sg, i, f, e, hs, hi, munch_tailStop hs hi hf he (hm hn),
        by rw [hc]; rfl, rfl, rfl⟩
    have hsp : ¬ isSpace c = true := by
      rw [isSpace_iff]; unfold Digit at hd; omega
    rw [hc, List.cons_append, scanToken, if_neg hsp]
    have hd' : c = 0x2D ∨ (0x30 ≤ c ∧ c ≤ 0x39) := hd
    have hdc : c = 0x2D ∨ isDigit c = true := by rw [isDigit_iff]; exact hd
    rw [if_neg (by omega), if_neg (by omega), if_neg (by omega), if_neg (by omega),
      if_neg (by omega), if_neg (by omega), if_neg (by omega), if_neg (by omega),
      if_neg (by omega), if_neg (by omega), if_pos hdc, h1]
    simp only
    rw [htok]
  · have hn' : tok.isNum = false := by simpa using hn
    rw [hn']
    cases ht with
    | str h =>
      rename_i t s
      rw [show (0x22 :: (t ++ [0x22])) ++ r = 0x22 :: (t ++ 0x22 :: r) by simp, scanToken,
        if_neg (by decide), if_neg (by omega), if_neg (by omega), if_neg (by omega),
        if_neg (by omega), if_neg (by omega), if_neg (by omega), if_neg (by omega),
        if_neg (by omega), if_neg (by omega), if_pos rfl, scanString_iff.2 ⟨t, h, rfl⟩]
    | uint => cases hn'
    | int => cases hn'
    | float => cases hn'
    | _ => rfl

theorem TokText.ne_nil {fl : Floats F} {tok : Token F} {t : Bytes} (h : TokText fl tok t) :
    t ≠ [] := by
  cases h with
  | uint hi => obtain ⟨d, ds, rfl, _⟩ := IntPart.head hi; simp
  | float hs hi => obtain ⟨d, ds, rfl, _⟩ := IntPart.head hi; simp
  | _ => simp

/-- the end of the input, or a zero byte -/
theorem scan_eof (fl : Floats F) {s : Bytes} {l : Lex} :
    scanToken fl s = (.eof, l) ↔
      ∃ w, Ws w ∧ ((s = w ∧ l = ⟨[], false⟩) ∨ (s = w ++ 0 :: l.pend ∧ l.over = false)) := by
  constructor
  · intro h
    induction s with
    | nil =>
      simp only [scanToken, Prod.mk.injEq, true_and] at h
      exact ⟨[], fun _ h => by (cases h), .inl ⟨rfl, h.symm⟩⟩
    | cons c s ih =>
      rw [scanToken] at h
      by_cases hsp : isSpace c = true
      · rw [if_pos hsp] at h
        obtain ⟨w, hw, hor⟩ := ih h
        refine ⟨c :: w, ?_, ?_⟩
        · intro x hx
          simp only [List.mem_cons] at hx
          rcases hx with rfl | hx
          · exact isSpace_iff.1 hsp
          · exact hw x hx
        · rcases hor with ⟨rfl, h⟩ | ⟨h, h'⟩
          · exact .inl ⟨rfl, h⟩
          · exact .inr ⟨by rw [h]; rfl, h'⟩
      rw [if_neg hsp] at h
      refine ⟨[], fun _ h => by (cases h), .inr ?_⟩
      have lit : ∀ (tk : Token F) (ls : Bytes), tk ≠ .eof →
          (scanLiteral tk ls s).1 ≠ .eof := by
        intro tk ls
        generalize s = s
        intro hne
        induction ls generalizing s with
        | nil => exact hne
        | cons l ls ih =>
          rcases s with _ | ⟨c, s⟩
          · simp [scanLiteral]
          · simp only [scanLiteral]
            split
            · exact ih s
            · simp
      by_cases hc : c = 0x5B
      · rw [if_pos hc] at h; exact absurd (congrArg Prod.fst h) (by simp)
      rw [if_neg hc] at h
      by_cases hc : c = 0x5D
      · rw [if_pos hc] at h; exact absurd (congrArg Prod.fst h) (by simp)
      rw [if_neg hc] at h
      by_cases hc : c = 0x7B
      · rw [if_pos hc] at h; exact absurd (congrArg Prod.fst h) (by simp)
      rw [if_neg hc] at h
      by_cases hc : c = 0x7D
      · rw [if_pos hc] at h; exact absurd (congrArg Prod.fst h) (by simp)
      rw [if_neg hc] at h
      by_cases hc : c = 0x3A
      · rw [if_pos hc] at h; exact absurd (congrArg Prod.fst h) (by simp)
      rw [if_neg hc] at h
      by_cases hc : c = 0x2C
      · rw [if_pos hc] at h; exact absurd (congrArg Prod.fst h) (by simp)
      rw [if_neg hc] at h
      by_cases hc : c = 0x74
      · rw [if_pos hc] at h; exact absurd (congrArg Prod.fst h) (lit _ _ (by simp))
      rw [if_neg hc] at h
      by_cases hc : c = 0x66
      · rw [if_pos hc] at h; exact absurd (congrArg Prod.fst h) (lit _ _ (by simp))
      rw [if_neg hc] at h
      by_cases hc : c = 0x6E
      · rw [if_pos hc] at h; exact absurd (congrArg Prod.fst h) (lit _ _ (by simp))
      rw [if_neg hc] at h
      by_cases hc : c = 0x22
      · rw [if_pos hc] at h
        rcases hs : scanString s with _ | ⟨buf, s'⟩
        · rw [hs] at h; exact absurd (congrArg Prod.fst h) (by simp)
        · rw [hs] at h; exact absurd (congrArg Prod.fst h) (by simp)
      rw [if_neg hc] at h
      by_cases hc : c = 0x2D ∨ isDigit c = true
      · rw [if_pos hc] at h
        rcases hn : numInit c s with _ | ⟨ty, buf, s'⟩
        · rw [hn] at h; exact absurd (congrArg Prod.fst h) (by simp)
        · rw [hn] at h
          have h := congrArg Prod.fst h
          simp only at h
          unfold numDone at h
          split at h <;> (try split at h) <;> cases h
      rw [if_neg hc] at h
      by_cases hc : c = 0
      · rw [if_pos hc] at h
        simp only [Prod.mk.injEq, true_and] at h
        subst h
        exact ⟨by rw [hc]; rfl, rfl⟩
      rw [if_neg hc] at h
      exact absurd (congrArg Prod.fst h) (by simp)
  · rintro ⟨w, hw, ⟨rfl, rfl⟩ | ⟨h, ho⟩⟩
    · have := scan_ws fl hw []
      rw [List.append_nil] at this
      rw [this]; rfl
    · rw [h, scan_ws fl hw, scanToken]
      obtain ⟨p, o⟩ := l
      simp only at ho
      subst ho
      rfl

end Verif.Json
