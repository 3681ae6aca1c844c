import Verif.Json.PlaceLemmas

/-!
# The reader with positions reads what the reader without them reads
-/

namespace Verif.Json

theorem get_cases {s : Bytes} {r : Src} (h : At s true r) :
    (r.pend = [] ∧ r.get.cur = none ∧ Just s none r.get) ∨
    ∃ c t, r.pend = c :: t ∧ r.get.cur = some c ∧ r.get.pend = t ∧ At s true r.get ∧ Just s (some c) r.get := by
  obtain ⟨hj, hc, ht, _⟩ := at_get h
  cases hp : r.pend with
  | nil =>
    rw [hp] at hc; simp only [List.head?_nil] at hc
    rw [hc] at hj
    exact .inl ⟨rfl, hc, hj⟩
  | cons c t =>
    rw [hp] at hc ht; simp only [List.head?_cons, List.tail_cons] at hc ht
    rw [hc] at hj
    exact .inr ⟨c, t, rfl, hc, ht, hj.at_some, hj⟩

/-- a part of the lexer reads what the function `old` reads -/
def Reads (n : Nat) (x : Sc (Option α)) (old : Bytes → Option (α × Bytes)) : Prop :=
  ∀ s r, At s true r → r.pend.length < n →
    (∀ a t, old r.pend = some (a, t) → (x r).1 = some a ∧ (x r).2.pend = t) ∧ (old r.pend = none → (x r).1 = none)

theorem Reads.mono {n m : Nat} {x : Sc (Option α)} {old : Bytes → Option (α × Bytes)} (h : Reads m x old) (hm : n ≤ m) :
    Reads n x old := fun s r ha hn => h s r ha (by omega)

theorem reads_some (n : Nat) (a : α) : Reads n (Sc.pure (some a)) fun t => some (a, t) := by
  intro s r _ _
  exact ⟨fun b t h => by cases h; exact ⟨rfl, rfl⟩, fun h => by cases h⟩

theorem reads_none (n : Nat) : Reads (α := α) n (Sc.pure none) fun _ => none := by
  intro s r _ _
  exact ⟨fun b t h => (by cases h), fun _ => rfl⟩

/-- after `get` -/
theorem Reads.get {n m : Nat} {g : Option Nat → Sc (Option α)} {old : Bytes → Option (α × Bytes)} (hm : n ≤ m + 1)
    (hnone : (∀ r, (g none r).1 = none) ∧ old [] = none)
    (hsome : ∀ c, Reads m (g (some c)) (fun t => old (c :: t))) : Reads n (getc.bind g) old := by
  intro s r h hn
  simp only [Sc.bind, getc]
  rcases get_cases h with ⟨hp, hc, -⟩ | ⟨c, t, hp, hc, ht, ha, -⟩
  · rw [hp, hc, hnone.2]
    exact ⟨fun a t h => (by cases h), fun _ => hnone.1 _⟩
  · rw [hp, hc]
    have := hsome c s r.get ha (by rw [ht]; rw [hp] at hn; simp only [List.length_cons] at hn; omega)
    rwa [ht] at this

theorem Reads.congr {n : Nat} {x : Sc (Option α)} {old old' : Bytes → Option (α × Bytes)} (h : Reads n x old) (e : ∀ t, old' t = old t) :
    Reads n x old' := fun s r ha hn => by rw [e]; exact h s r ha hn

theorem Reads.ite {n : Nat} {p : Prop} [Decidable p] {x y : Sc (Option α)} {old : Bytes → Option (α × Bytes)} (hx : p → Reads n x old)
    (hy : ¬ p → Reads n y old) : Reads n (if p then x else y) old := by
  by_cases h : p
  · rw [if_pos h]; exact hx h
  · rw [if_neg h]; exact hy h

/-- one part after the other -/
theorem Reads.bind {n : Nat} {x : Sc (Option α)} {g : Option α → Sc (Option β)} {old : Bytes → Option (α × Bytes)}
    {new : Bytes → Option (β × Bytes)} (hx : Reads n x old) (hp : Post Some' n x)
    (hnone : (∀ r, (g none r).1 = none) ∧ ∀ t, old t = none → new t = none)
    (hsome : ∀ a, ∃ k : Bytes → Option (β × Bytes), Reads n (g (some a)) k ∧ ∀ t t', old t = some (a, t') → new t = k t') :
    Reads n (x.bind g) new := by
  intro s r h hn
  obtain ⟨h1, h2⟩ := hx s r h hn
  obtain ⟨-, p2, p3, -⟩ := hp s r h hn
  rw [Sc.bind]
  cases ho : old r.pend with
  | none =>
    rw [h2 ho, hnone.2 _ ho]
    exact ⟨fun a t h => (by cases h), fun _ => hnone.1 _⟩
  | some p =>
    obtain ⟨a, t⟩ := p
    obtain ⟨e1, e2⟩ := h1 a t ho
    obtain ⟨k, hk, hk2⟩ := hsome a
    rw [e1, hk2 _ _ ho]
    have := hk s (x r).2 (p2 (by rw [e1]; rfl)) (by omega)
    rwa [e2] at this

theorem reads_codepoint (n : Nat) : ∀ (fs : List Nat) (cp : Nat), Reads n (placeCodepoint fs cp) (codepointLoop fs cp)
  | [], cp => (reads_some n cp).congr fun t => by rw [codepointLoop]
  | f :: fs, cp => by
    simp only [placeCodepoint]
    refine Reads.get (m := n) (by omega) ⟨fun _ => rfl, rfl⟩ fun c => ?_
    simp only [codepointLoop]
    by_cases h1 : 0x30 ≤ c ∧ c ≤ 0x39
    · simp only [if_pos h1]; exact reads_codepoint n fs _
    · simp only [if_neg h1]
      by_cases h2 : 0x41 ≤ c ∧ c ≤ 0x46
      · simp only [if_pos h2]; exact reads_codepoint n fs _
      · simp only [if_neg h2]
        by_cases h3 : 0x61 ≤ c ∧ c ≤ 0x66
        · simp only [if_pos h3]; exact reads_codepoint n fs _
        · simp only [if_neg h3]; exact reads_none n

/-- a byte, and what a part has read -/
theorem reads_cons (n : Nat) {x : Sc (Option Bytes)} {old : Bytes → Option (Bytes × Bytes)} (c : Nat) (hx : Reads n x old)
    (hp : Post Some' n x) : Reads n (x.bind fun o => Sc.pure (o.map (c :: ·)))
      fun t => match old t with
        | some (out, t') => some (c :: out, t')
        | none => none := by
  refine hx.bind hp ⟨fun _ => rfl, fun t h => by simp only [h]⟩ fun a => ⟨_, reads_some n (c :: a), fun t t' h => by simp only [h]⟩

theorem reads_range (n : Nat) : ∀ (rs : List (Nat × Nat)), Reads n (placeRange rs) (nextByteInRange rs)
  | [] => (reads_some n []).congr fun t => by rw [nextByteInRange]
  | (lo, hi) :: rs => by
    simp only [placeRange]
    refine Reads.get (m := n) (by omega) ⟨fun _ => rfl, rfl⟩ fun c => ?_
    simp only [nextByteInRange]
    by_cases h1 : lo ≤ c ∧ c ≤ hi
    · simp only [if_pos h1]; exact reads_cons n c (reads_range n rs) (steady_range n n rs).post
    · simp only [if_neg h1]; exact reads_none n

/-- the second half of a pair of surrogates -/
def low (cp1 : Nat) (s : Bytes) : Option (Bytes × Bytes) :=
  match s with
  | 0x5C :: 0x75 :: s =>
    match getCodepoint s with
    | none => none
    | some (cp2, s) =>
      if 0xDC00 ≤ cp2 ∧ cp2 ≤ 0xDFFF then some (encode ((cp1 <<< 10) + cp2 - 0x35FDC00), s)
      else none
  | _ => none

theorem reads_low (n cp1 : Nat) : Reads n (placeLow cp1) (low cp1) := by
  rw [placeLow]
  refine Reads.get (m := n) (by omega) ⟨fun _ => rfl, rfl⟩ fun c => ?_
  refine Reads.ite (fun h => ?_) fun h => (reads_none n).congr fun t => ?_
  · cases h
    refine Reads.get (m := n) (by omega) ⟨fun _ => rfl, rfl⟩ fun c => ?_
    refine Reads.ite (fun h => ?_) fun h => (reads_none n).congr fun t => ?_
    · cases h
      refine (reads_codepoint n [12, 8, 4, 0] 0).bind (steady_codepoint n n _ _).post ⟨fun _ => rfl, fun t h => ?_⟩ fun a => ?_
      · simp only [low, getCodepoint, h]
      · refine ⟨fun t => if 0xDC00 ≤ a ∧ a ≤ 0xDFFF then some (encode ((cp1 <<< 10) + a - 0x35FDC00), t) else none, ?_, fun t t' h => ?_⟩
        · simp only
          by_cases ha : 0xDC00 ≤ a ∧ a ≤ 0xDFFF
          · simp only [if_pos ha]; exact reads_some n _
          · simp only [if_neg ha]; exact reads_none n
        · simp only [low, getCodepoint, h]
    · simp only [low]
      split
      · rename_i heq; simp only [List.cons.injEq] at heq; exact absurd (congrArg some heq.2.1) h
      · rfl
  · simp only [low]
    split
    · rename_i heq; simp only [List.cons.injEq] at heq; exact absurd (congrArg some heq.1) h
    · rfl

theorem reads_unicode (n : Nat) : Reads n placeUnicode scanUnicode := by
  rw [placeUnicode]
  refine (reads_codepoint n [12, 8, 4, 0] 0).bind (steady_codepoint n n _ _).post ⟨fun _ => rfl, fun t h => ?_⟩ fun a => ?_
  · simp only [scanUnicode, getCodepoint, h]
  · refine ⟨fun t => if 0xD800 ≤ a ∧ a ≤ 0xDBFF then low a t else if 0xDC00 ≤ a ∧ a ≤ 0xDFFF then none else some (encode a, t),
      ?_, fun t t' h => ?_⟩
    · simp only
      by_cases h1 : 0xD800 ≤ a ∧ a ≤ 0xDBFF
      · simp only [if_pos h1]; exact reads_low n a
      · simp only [if_neg h1]
        by_cases h2 : 0xDC00 ≤ a ∧ a ≤ 0xDFFF
        · simp only [if_pos h2]; exact reads_none n
        · simp only [if_neg h2]; exact reads_some n _
    · simp only [scanUnicode, getCodepoint, h, low]
      rfl

theorem reads_escape (n : Nat) : Reads n placeEscape scanEscape := by
  rw [placeEscape]
  refine Reads.get (m := n) (by omega) ⟨fun _ => rfl, rfl⟩ fun c => ?_
  simp only [scanEscape]
  split
  all_goals first
    | (rename_i h; cases h; first | exact reads_some n _ | exact reads_unicode n)
    | skip
  rename_i h1 h2 h3 h4 h5 h6 h7 h8 h9
  refine (reads_none n).congr fun t => ?_
  split
  all_goals first
    | rfl
    | (rename_i heq; simp only [List.cons.injEq] at heq; simp_all)

theorem reads_char (n c : Nat) : Reads n (placeChar c) (scanChar c) := by
  have multi : ∀ rs, Reads n ((placeRange rs).bind fun o => Sc.pure (o.map (c :: ·))) fun t => match nextByteInRange rs t with
      | some (out, t') => some (c :: out, t')
      | none => none := fun rs => reads_cons n c (reads_range n rs) (steady_range n n rs).post
  simp only [placeChar]
  have key : ∀ (p : Prop) [Decidable p] (x y : Sc (Option Bytes)) (f g : Bytes → Option (Bytes × Bytes)),
      (p → Reads n x f) → (¬ p → Reads n y g) → Reads n (if p then x else y) fun t => if p then f t else g t := by
    intro p _ x y f g hx hy
    by_cases h : p
    · simp only [if_pos h]; exact hx h
    · simp only [if_neg h]; exact hy h
  show Reads n _ fun t => scanChar c t
  simp only [scanChar]
  refine key _ _ _ _ _ (fun _ => reads_escape n) fun _ => ?_
  refine key _ _ _ _ _ (fun _ => reads_none n) fun _ => ?_
  refine key _ _ _ _ _ (fun _ => reads_some n _) fun _ => ?_
  iterate 7 refine key _ _ _ _ _ (fun _ => multi _) fun _ => ?_
  exact reads_none n

theorem reads_stringLoop : ∀ (n m : Nat) (buf : Bytes), Reads (min n m) (placeString n buf) (scanStringLoop m buf)
  | 0, m, buf => fun _ _ _ h => absurd h (by omega)
  | n + 1, 0, buf => fun _ _ _ h => absurd h (by omega)
  | n + 1, m + 1, buf => by
    simp only [placeString]
    refine Reads.get (m := min n m) (by omega) ⟨fun _ => rfl, by rw [scanStringLoop]⟩ fun c => ?_
    simp only [scanStringLoop]
    by_cases hc : c = 0x22
    · simp only [if_pos hc]; exact reads_some _ _
    · simp only [if_neg hc]
      refine (reads_char _ c).bind (steady_char _ 0 c).post ⟨fun _ => rfl, fun t h => by simp only [h]⟩ fun a => ?_
      exact ⟨_, reads_stringLoop n m (buf ++ a), fun t t' h => by simp only [h]⟩

theorem reads_string (n : Nat) : Reads n (placeString n []) scanString := by
  intro s r h hn
  have := reads_stringLoop n (r.pend.length + 1) [] s r h (by omega)
  exact this

/-! ## Numbers -/

theorem Reads.getd {n m : Nat} {g : Option Nat → Sc (Option α)} {old : Bytes → Option (α × Bytes)} (hm : n ≤ m + 1)
    (hnone : (∃ a, g none = (fun r => (some a, r.unget)) ∧ old [] = some (a, [])) ∨ ((∀ r, (g none r).1 = none) ∧ old [] = none))
    (hsome : ∀ c, (∃ a, g (some c) = (fun r => (some a, r.unget)) ∧ ∀ t, old (c :: t) = some (a, c :: t)) ∨
      Reads m (g (some c)) (fun t => old (c :: t))) : Reads n (getc.bind g) old := by
  intro s r h hn
  simp only [Sc.bind, getc]
  rcases get_cases h with ⟨hp, hc, hj⟩ | ⟨c, t, hp, hc, ht, ha, hj⟩
  · rw [hp, hc]
    rcases hnone with ⟨a, e, e2⟩ | ⟨e, e2⟩
    · rw [e, e2]
      refine ⟨fun b t h => ?_, fun h => by cases h⟩
      cases h
      exact ⟨rfl, (just_unget hj).2.1⟩
    · rw [e2]
      exact ⟨fun a t h => (by cases h), fun _ => e _⟩
  · rw [hp, hc]
    rcases hsome c with ⟨a, e, e2⟩ | e
    · rw [e, e2]
      refine ⟨fun b t h => ?_, fun h => by cases h⟩
      cases h
      refine ⟨rfl, ?_⟩
      rw [(just_unget hj).2.1, ht]
      rfl
    · have := e s r.get ha (by rw [ht]; rw [hp] at hn; simp only [List.length_cons] at hn; omega)
      rwa [ht] at this

/-- what a state of the automaton of numbers reads -/
def resh (f : Bytes → Option (NumType × Bytes × Bytes)) (t : Bytes) : Option ((NumType × Bytes) × Bytes) :=
  (f t).map fun p => ((p.1, p.2.1), p.2.2)

theorem reads_ite {n : Nat} {p : Prop} [Decidable p] {x y : Sc (Option α)} {f : Bytes → Option (α × Bytes)}
    (hx : p → Reads n x f) (hy : ¬ p → Reads n y f) : Reads n (if p then x else y) f := Reads.ite hx hy

theorem reads_any2 : ∀ (n : Nat) (buf : Bytes), Reads n (placeAny2 n buf) (resh (numAny2 buf))
  | 0, buf => fun _ _ _ h => absurd h (by omega)
  | n + 1, buf => by
    simp only [placeAny2]
    refine Reads.getd (m := n) (by omega) (.inl ⟨_, rfl, rfl⟩) fun c => ?_
    by_cases h : isDigit c
    · simp only [h, resh, numAny2, if_true]; exact .inr (reads_any2 n _)
    · simp only [h, resh, numAny2]; exact .inl ⟨_, rfl, fun _ => rfl⟩

theorem reads_sign (n : Nat) (buf : Bytes) : Reads n (placeSign n buf) (resh (numSign buf)) := by
  simp only [placeSign]
  refine Reads.getd (m := n) (by omega) (.inr ⟨fun _ => rfl, rfl⟩) fun c => .inr ?_
  by_cases h : isDigit c
  · simp only [h, resh, numSign, if_true]; exact reads_any2 n _
  · simp only [h, resh, numSign]; exact reads_none n

theorem reads_exponent (n : Nat) (buf : Bytes) : Reads n (placeExponent n buf) (resh (numExponent buf)) := by
  simp only [placeExponent]
  refine Reads.getd (m := n) (by omega) (.inr ⟨fun _ => rfl, rfl⟩) fun c => .inr ?_
  by_cases h : c = 0x2B ∨ c = 0x2D
  · simp only [h, resh, numExponent, if_true]; exact reads_sign n _
  · by_cases h2 : isDigit c
    · simp only [h, h2, resh, numExponent, if_true, if_false]; exact reads_any2 n _
    · simp only [h, h2, resh, numExponent, if_false]; exact reads_none n

theorem reads_decimal2 : ∀ (n : Nat) (buf : Bytes), Reads n (placeDecimal2 n buf) (resh (numDecimal2 buf))
  | 0, buf => fun _ _ _ h => absurd h (by omega)
  | n + 1, buf => by
    simp only [placeDecimal2]
    refine Reads.getd (m := n) (by omega) (.inl ⟨_, rfl, rfl⟩) fun c => ?_
    by_cases h : isDigit c
    · simp only [h, resh, numDecimal2, if_true]; exact .inr (reads_decimal2 n _)
    · by_cases h2 : c = 0x65 ∨ c = 0x45
      · simp only [h, h2, resh, numDecimal2, if_true]; exact .inr (reads_exponent n _)
      · simp only [h, h2, resh, numDecimal2, if_false]; exact .inl ⟨_, rfl, fun _ => rfl⟩

theorem reads_decimal1 (n : Nat) (buf : Bytes) : Reads n (placeDecimal1 n buf) (resh (numDecimal1 buf)) := by
  simp only [placeDecimal1]
  refine Reads.getd (m := n) (by omega) (.inr ⟨fun _ => rfl, rfl⟩) fun c => .inr ?_
  by_cases h : isDigit c
  · simp only [h, resh, numDecimal1, if_true]; exact reads_decimal2 n _
  · simp only [h, resh, numDecimal1]; exact reads_none n

theorem reads_any1 (ty : NumType) : ∀ (n : Nat) (buf : Bytes), Reads n (placeAny1 ty n buf) (resh (numAny1 ty buf))
  | 0, buf => fun _ _ _ h => absurd h (by omega)
  | n + 1, buf => by
    simp only [placeAny1]
    refine Reads.getd (m := n) (by omega) (.inl ⟨_, rfl, rfl⟩) fun c => ?_
    by_cases h : isDigit c
    · simp only [h, resh, numAny1, if_true]; exact .inr (reads_any1 ty n _)
    · by_cases h3 : c = 0x2E
      · simp only [h, h3, resh, numAny1, if_true]; exact .inr (reads_decimal1 n _)
      · by_cases h2 : c = 0x65 ∨ c = 0x45
        · simp only [h, h2, h3, resh, numAny1, if_true, if_false]; exact .inr (reads_exponent n _)
        · simp only [h, h2, h3, resh, numAny1, if_false]; exact .inl ⟨_, rfl, fun _ => rfl⟩

theorem reads_zero (ty : NumType) (n : Nat) (buf : Bytes) : Reads n (placeZero ty n buf) (resh (numZero ty buf)) := by
  simp only [placeZero]
  refine Reads.getd (m := n) (by omega) (.inl ⟨_, rfl, rfl⟩) fun c => ?_
  by_cases h3 : c = 0x2E
  · simp only [h3, resh, numZero, if_true]; exact .inr (reads_decimal1 n _)
  · by_cases h2 : c = 0x65 ∨ c = 0x45
    · simp only [h2, h3, resh, numZero, if_true, if_false]; exact .inr (reads_exponent n _)
    · simp only [h2, h3, resh, numZero, if_false]; exact .inl ⟨_, rfl, fun _ => rfl⟩

theorem reads_minus (n : Nat) (buf : Bytes) : Reads n (placeMinus n buf) (resh (numMinus buf)) := by
  simp only [placeMinus]
  refine Reads.getd (m := n) (by omega) (.inr ⟨fun _ => rfl, rfl⟩) fun c => .inr ?_
  by_cases h : c = 0x30
  · simp only [h, resh, numMinus, if_true]; exact reads_zero _ n _
  · by_cases h2 : 0x31 ≤ c ∧ c ≤ 0x39
    · simp only [h, h2, resh, numMinus, if_true, if_false]; exact reads_any1 _ n _
    · simp only [h, h2, resh, numMinus, if_false]; exact reads_none n

theorem reads_number (n c : Nat) : Reads n (placeNumber n c) (resh (numInit c)) := by
  simp only [placeNumber]
  show Reads n _ fun t => resh (numInit c) t
  simp only [resh, numInit]
  by_cases h : c = 0x2D
  · simp only [if_pos h]; exact reads_minus n _
  · by_cases h2 : c = 0x30
    · simp only [if_neg h, if_pos h2]; exact reads_zero _ n _
    · simp only [if_neg h, if_neg h2]; exact reads_any1 _ n _

/-! ## Tokens -/

/-- a part of the lexer finds the token that `old` finds -/
def Finds (n : Nat) (x : Sc (Token F)) (old : Bytes → Token F × Bytes) : Prop :=
  ∀ s r, At s true r → r.pend.length < n →
    (x r).1 = (old r.pend).1 ∧ (Going (old r.pend).1 → (x r).2.pend = (old r.pend).2)

theorem finds_pure (n : Nat) (t : Token F) (f : Bytes → Bytes) (h : Going t → ∀ s, f s = s) : Finds n (Sc.pure t) fun s => (t, f s) := by
  intro s r _ _
  exact ⟨rfl, fun hg => (h hg _).symm⟩

theorem finds_literal (n : Nat) (tok : Token F) : ∀ ls, Finds n (placeLiteral tok ls) (scanLiteral tok ls)
  | [] => fun s r _ _ => by simp only [placeLiteral, scanLiteral, Sc.pure]; exact ⟨trivial, fun _ => trivial⟩
  | l :: ls => by
    intro s r h hn
    rcases get_cases h with ⟨hp, hc, hj⟩ | ⟨c, t, hp, hc, ht, ha, hj⟩
    · have eg : getc r = (none, r.get) := by rw [getc, hc]
      simp only [placeLiteral, Sc.bind, eg, hp, scanLiteral, reduceCtorEq, if_false, Sc.pure]
      exact ⟨trivial, fun h => absurd h (by simp [Going])⟩
    · have eg : getc r = (some c, r.get) := by rw [getc, hc]
      simp only [placeLiteral, Sc.bind, eg, hp, scanLiteral, Option.some.injEq]
      by_cases e : c = l
      · simp only [if_pos e]
        have := finds_literal n tok ls s r.get ha (by rw [ht]; rw [hp] at hn; simp only [List.length_cons] at hn; omega)
        rwa [ht] at this
      · simp only [if_neg e, Sc.pure]
        exact ⟨trivial, fun h => absurd h (by simp [Going])⟩

/-- a text without the white space it begins with -/
def skipSpace (s : Bytes) : Bytes := s.dropWhile isSpace

theorem scanToken_skip (fl : Floats F) : ∀ s, scanToken fl s = scanToken fl (skipSpace s)
  | [] => rfl
  | c :: s => by
    by_cases h : isSpace c
    · rw [scanToken, if_pos h, skipSpace, List.dropWhile_cons, if_pos h]; exact scanToken_skip fl s
    · rw [skipSpace, List.dropWhile_cons, if_neg h]

theorem skipSpace_head : ∀ {s : Bytes} {c : Nat} {t : Bytes}, skipSpace s = c :: t → ¬ isSpace c = true
  | [], c, t, h => by simp [skipSpace] at h
  | d :: s, c, t, h => by
    by_cases hd : isSpace d
    · rw [skipSpace, List.dropWhile_cons, if_pos hd] at h
      exact skipSpace_head h
    · rw [skipSpace, List.dropWhile_cons, if_neg hd] at h
      cases h; exact hd

theorem reads_space : ∀ (n : Nat) (s : Bytes) (r : Src), At s true r → r.pend.length < n →
    (placeSpace n r).1 = (skipSpace r.pend).head? ∧ (placeSpace n r).2.pend = (skipSpace r.pend).tail
  | 0, _, _, _, h => absurd h (by omega)
  | n + 1, s, r, h, hn => by
    simp only [placeSpace, Sc.bind, getc]
    obtain ⟨-, -, hpt, -⟩ := at_get h
    rcases get_cases h with ⟨hp, hc, hj⟩ | ⟨c, t, hp, hc, ht, ha, hj⟩
    · rw [hp] at hpt
      rw [hp, hc]
      exact ⟨rfl, hpt⟩
    · rw [hp, hc]
      simp only
      by_cases hs : isSpace c
      · rw [if_pos hs, skipSpace, List.dropWhile_cons, if_pos hs]
        have := reads_space n s r.get ha (by rw [ht]; rw [hp] at hn; simp only [List.length_cons] at hn; omega)
        rwa [ht] at this
      · rw [if_neg hs, skipSpace, List.dropWhile_cons, if_neg hs]
        exact ⟨rfl, ht⟩

theorem finds_ite {n : Nat} {p : Prop} [Decidable p] {x y : Sc (Token F)} {f g : Bytes → Token F × Bytes}
    (hx : p → Finds n x f) (hy : ¬ p → Finds n y g) : Finds n (if p then x else y) fun t => if p then f t else g t := by
  by_cases h : p
  · simp only [if_pos h]; exact hx h
  · simp only [if_neg h]; exact hy h

/-- the token a text begins with that starts with `c`, which is no white space, and what follows -/
def tokenAfter (fl : Floats F) (c : Nat) (s : Bytes) : Token F × Bytes :=
  if c = 0x5B then (.beginArray, s)
  else if c = 0x5D then (.endArray, s)
  else if c = 0x7B then (.beginObject, s)
  else if c = 0x7D then (.endObject, s)
  else if c = 0x3A then (.nameSeparator, s)
  else if c = 0x2C then (.valueSeparator, s)
  else if c = 0x74 then scanLiteral .litTrue [0x72, 0x75, 0x65] s
  else if c = 0x66 then scanLiteral .litFalse [0x61, 0x6C, 0x73, 0x65] s
  else if c = 0x6E then scanLiteral .litNull [0x75, 0x6C, 0x6C] s
  else if c = 0x22 then
    match scanString s with
    | some (buf, s') => (.str buf, s')
    | none => (.error, [])
  else if c = 0x2D ∨ isDigit c then
    match numInit c s with
    | some (ty, buf, s') => (numDone fl ty buf, s')
    | none => (.error, [])
  else if c = 0x00 then (.eof, s)
  else (.error, s)

theorem scanToken_after (fl : Floats F) {c : Nat} (h : ¬ isSpace c = true) (s : Bytes) :
    (scanToken fl (c :: s)).1 = (tokenAfter fl c s).1 ∧ (scanToken fl (c :: s)).2.pend = (tokenAfter fl c s).2 := by
  have key : ∀ (p : Prop) [Decidable p] (x y : Token F × Lex) (x' y' : Token F × Bytes), (x.1 = x'.1 ∧ x.2.pend = x'.2) →
      (y.1 = y'.1 ∧ y.2.pend = y'.2) → (if p then x else y).1 = (if p then x' else y').1 ∧
      (if p then x else y).2.pend = (if p then x' else y').2 := by
    intro p _ x y x' y' hx hy
    by_cases hp : p
    · simp only [if_pos hp]; exact hx
    · simp only [if_neg hp]; exact hy
  rw [scanToken, if_neg h, tokenAfter]
  iterate 9 refine key _ _ _ _ _ ⟨rfl, rfl⟩ ?_
  refine key _ _ _ _ _ ?_ ?_
  · cases scanString s <;> exact ⟨rfl, rfl⟩
  refine key _ _ _ _ _ ?_ ?_
  · cases numInit c s <;> exact ⟨rfl, rfl⟩
  exact key _ _ _ _ _ ⟨rfl, rfl⟩ ⟨rfl, rfl⟩

theorem finds_switch (fl : Floats F) (n c : Nat) : Finds n (placeSwitch fl n (some c)) (tokenAfter fl c) := by
  have hid : ∀ (t : Token F), Finds n (Sc.pure t) fun s => (t, s) := fun t => finds_pure n t id fun _ _ => rfl
  simp only [placeSwitch]
  show Finds n _ fun s => tokenAfter fl c s
  simp only [tokenAfter]
  iterate 6 refine finds_ite (fun _ => hid _) fun _ => ?_
  iterate 3 refine finds_ite (fun _ => finds_literal n _ _) fun _ => ?_
  refine finds_ite (fun _ => ?_) fun _ => ?_
  · intro s r h hn
    obtain ⟨h1, h2⟩ := reads_string n s r h hn
    simp only [Sc.bind]
    cases e : scanString r.pend with
    | none =>
      rw [h2 e]
      exact ⟨rfl, fun h => absurd h (by simp [Going])⟩
    | some p =>
      obtain ⟨a, t⟩ := p
      obtain ⟨e1, e2⟩ := h1 a t e
      rw [e1]
      exact ⟨rfl, fun _ => e2⟩
  refine finds_ite (fun _ => ?_) fun _ => ?_
  · intro s r h hn
    obtain ⟨h1, h2⟩ := reads_number n c s r h hn
    simp only [Sc.bind]
    cases e : numInit c r.pend with
    | none =>
      rw [h2 (by rw [resh, e]; rfl)]
      exact ⟨rfl, fun h => absurd h (by simp [Going])⟩
    | some p =>
      obtain ⟨ty, buf, t⟩ := p
      obtain ⟨e1, e2⟩ := h1 (ty, buf) t (by rw [resh, e]; rfl)
      rw [e1]
      exact ⟨rfl, fun _ => e2⟩
  exact finds_ite (fun _ => hid _) fun _ => hid _

/-- the lexer finds the token that is there -/
theorem token_at (fl : Floats F) {n : Nat} {s : Bytes} {r : Src} (h : At s true r) (hn : r.pend.length < n) :
    ∃ r', placeToken fl n r = ((scanToken fl r.pend).1, r') ∧
      (Going (scanToken fl r.pend).1 → At s true r' ∧ r'.pend = (scanToken fl r.pend).2.pend ∧ r'.pend.length < n) := by
  refine ⟨(placeToken fl n r).2, ?_⟩
  have key : (placeToken fl n r).1 = (scanToken fl r.pend).1 ∧ (Going (scanToken fl r.pend).1 →
      (placeToken fl n r).2.pend = (scanToken fl r.pend).2.pend) := by
    obtain ⟨h1, h2⟩ := reads_space n s r h hn
    obtain ⟨-, p2, p3, -⟩ := (steady_space n n).post s r h hn
    rw [scanToken_skip, placeToken, Sc.bind, h1]
    cases e : skipSpace r.pend with
    | nil => exact ⟨rfl, fun h => absurd h (by simp [scanToken, Going])⟩
    | cons c t =>
      rw [e] at h1 h2
      simp only [List.tail_cons] at h2
      obtain ⟨q1, q2⟩ := finds_switch fl n c s _ (p2 (by rw [h1]; rfl)) (by omega)
      rw [h2] at q1 q2
      rw [(scanToken_after fl (skipSpace_head e) t).1, (scanToken_after fl (skipSpace_head e) t).2]
      exact ⟨q1, q2⟩
  obtain ⟨-, p2, p3, -⟩ := (steady_token fl n n).post s r h hn
  refine ⟨Prod.ext key.1 rfl, fun hg => ⟨p2 (by rw [key.1]; exact hg), key.2 hg, by omega⟩⟩

/-! ## The parser -/

/-- the two readers stand at the same place -/
def SamePlace (s : Bytes) (n : Nat) (m : Machine F) (r : Src) : Prop := At s true r ∧ r.pend = m.lex.pend ∧ r.pend.length < n

/-- a round of the one ends like a round of the other -/
def Follows (s : Bytes) (n : Nat) : Step F → Turn F × Src → Prop
  | .next m, t => t.1 = .next m.tok m.states m.skip ∧ (Going m.tok ∨ m.skip = true → SamePlace s n m t.2) ∧ (m.skip = true → Going m.tok)
  | .done l _, t => t.1 = .done ∧ At s true t.2 ∧ t.2.pend = l.pend ∧ t.2.pend.length < n
  | .fail e, t => t.1 = .fail e

/-- after the next token -/
theorem follows_then (fl : Floats F) {s : Bytes} {n : Nat} {m : Machine F} {r : Src} (h : SamePlace s n m r) {g : Token F → Sc (Turn F)}
    {k : Machine F → Step F} (hg : ∀ r', (Going (getToken fl m).tok → SamePlace s n (getToken fl m) r') →
      Follows s n (k (getToken fl m)) (g (getToken fl m).tok r')) :
    Follows s n (k (getToken fl m)) ((placeToken fl n).bind g r) := by
  obtain ⟨ha, hp, hl⟩ := h
  obtain ⟨r', e, hr⟩ := token_at fl ha hl
  rw [Sc.bind, e, hp]
  refine hg r' fun hgo => ?_
  rw [hp] at hr
  exact hr hgo

theorem follows_next (fl : Floats F) {s : Bytes} {n : Nat} {m : Machine F} {r : Src} (h : SamePlace s n m r) (hs : m.skip = false) :
    Follows s n (.next (getToken fl m)) ((placeToken fl n).bind (fun t => Sc.pure (.next t m.states false)) r) := by
  refine follows_then fl h (k := fun m => .next m) fun r' hr => ⟨?_, fun hg => ?_, fun hk => ?_⟩
  · show Turn.next _ _ _ = Turn.next _ _ m.skip
    rw [hs]; rfl
  · rcases hg with hg | hg
    · exact hr hg
    · have : m.skip = true := hg
      rw [hs] at this; cases this
  · have : m.skip = true := hk
    rw [hs] at this; cases this

theorem follows_states (fl : Floats F) {s : Bytes} {n : Nat} {m : Machine F} {r : Src} (h : SamePlace s n m r) (hs : m.skip = false) :
    Follows s n (evalStates fl m) (placeStates fl n m.states r) := by
  obtain ⟨tok, lex, states, skip, evs⟩ := m
  simp only at hs
  subst hs
  match states with
  | [] => exact ⟨rfl, h⟩
  | true :: st =>
    simp only [evalStates, placeStates]
    refine follows_then fl h (k := fun m => match m.tok with
      | .valueSeparator => .next (getToken fl m)
      | .endArray => .next { m.emit .endArray with states := st, skip := true }
      | _ => .fail .syntaxError) fun r' hr => ?_
    generalize hm : getToken fl ⟨tok, lex, true :: st, false, evs⟩ = m at hr ⊢
    have hst : m.states = true :: st ∧ m.skip = false := by rw [← hm]; exact ⟨rfl, rfl⟩
    simp only
    cases ht : m.tok with
    | valueSeparator =>
      rw [ht] at hr
      have := follows_next fl (hr trivial) hst.2
      rwa [hst.1] at this
    | endArray =>
      rw [ht] at hr
      refine ⟨?_, fun _ => hr trivial, fun _ => ?_⟩
      · show Turn.next _ _ _ = Turn.next m.tok st true
        rw [ht]
      · show Going m.tok
        rw [ht]; trivial
    | _ => rfl
  | false :: st =>
    simp only [evalStates, placeStates]
    refine follows_then fl h (k := fun m => match m.tok with
      | .valueSeparator =>
        let m := getToken fl m
        match m.tok with
        | .str k =>
          let m := getToken fl (m.emit (.key k))
          match m.tok with
          | .nameSeparator => .next (getToken fl m)
          | _ => .fail .syntaxError
        | _ => .fail .syntaxError
      | .endObject => .next { m.emit .endObject with states := st, skip := true }
      | _ => .fail .syntaxError) fun r' hr => ?_
    generalize hm : getToken fl ⟨tok, lex, false :: st, false, evs⟩ = m at hr ⊢
    have hst : m.states = false :: st ∧ m.skip = false := by rw [← hm]; exact ⟨rfl, rfl⟩
    simp only
    cases ht : m.tok with
    | valueSeparator =>
      rw [ht] at hr
      simp only
      refine follows_then fl (hr trivial) (k := fun m => match m.tok with
        | .str k =>
          match (getToken fl (m.emit (.key k))).tok with
          | .nameSeparator => .next (getToken fl (getToken fl (m.emit (.key k))))
          | _ => .fail .syntaxError
        | _ => .fail .syntaxError) fun r2 hr2 => ?_
      have hst2 : (getToken fl m).states = false :: st ∧ (getToken fl m).skip = false := hst
      generalize getToken fl m = m2 at hr2 hst2 ⊢
      cases ht2 : m2.tok with
      | str k =>
        rw [ht2] at hr2
        simp only
        have ha3 : SamePlace s n (m2.emit (.key k)) r2 := hr2 trivial
        refine follows_then fl ha3 (k := fun m => match m.tok with
          | .nameSeparator => .next (getToken fl m)
          | _ => .fail .syntaxError) fun r3 hr3 => ?_
        have hst3 : (getToken fl (m2.emit (.key k))).states = false :: st ∧ (getToken fl (m2.emit (.key k))).skip = false := hst2
        generalize getToken fl (m2.emit (.key k)) = m3 at hr3 hst3 ⊢
        cases ht3 : m3.tok with
        | nameSeparator =>
          rw [ht3] at hr3
          have := follows_next fl (hr3 trivial) hst3.2
          rwa [hst3.1] at this
        | _ => rfl
      | _ => rfl
    | endObject =>
      rw [ht] at hr
      refine ⟨?_, fun _ => hr trivial, fun _ => ?_⟩
      · show Turn.next _ _ _ = Turn.next m.tok st true
        rw [ht]
      · show Going m.tok
        rw [ht]; trivial
    | _ => rfl

theorem follows_step (fl : Floats F) {s : Bytes} {n : Nat} {m : Machine F} {r : Src} (h : Going m.tok → SamePlace s n m r)
    (hs : m.skip = true → Going m.tok) : Follows s n (step fl m) (placeStep fl n m.tok m.states m.skip r) := by
  obtain ⟨tok, lex, states, skip, evs⟩ := m
  simp only at h hs
  cases skip with
  | true =>
    simp only [step, placeStep, if_true]
    have := follows_states fl (m := ⟨tok, lex, states, false, evs⟩) (h (hs rfl)) rfl
    exact this
  | false =>
    have st : Going tok → ∀ e, Follows s n (evalStates fl (Machine.emit ⟨tok, lex, states, false, evs⟩ e)) (placeStates fl n states r) :=
      fun hg e => follows_states fl (m := Machine.emit ⟨tok, lex, states, false, evs⟩ e) (h hg) rfl
    simp only [step, placeStep, Bool.false_eq_true, if_false]
    cases tok with
    | beginObject =>
      simp only
      have ha : SamePlace s n (Machine.emit ⟨.beginObject, lex, states, false, evs⟩ .startObject) r := h trivial
      refine follows_then fl ha (k := fun m => match m.tok with
        | .endObject => evalStates fl (m.emit .endObject)
        | .str k =>
          match (getToken fl (m.emit (.key k))).tok with
          | .nameSeparator => .next (getToken fl { getToken fl (m.emit (.key k)) with states := false :: (getToken fl (m.emit (.key k))).states })
          | _ => .fail .syntaxError
        | _ => .fail .syntaxError) fun r2 hr2 => ?_
      have hst : (getToken fl (Machine.emit ⟨.beginObject, lex, states, false, evs⟩ .startObject)).states = states ∧
        (getToken fl (Machine.emit ⟨.beginObject, lex, states, false, evs⟩ .startObject)).skip = false := ⟨rfl, rfl⟩
      generalize getToken fl (Machine.emit ⟨.beginObject, lex, states, false, evs⟩ .startObject) = m2 at hr2 hst ⊢
      cases ht2 : m2.tok with
      | endObject =>
        rw [ht2] at hr2
        have := follows_states fl (m := m2.emit .endObject) (hr2 trivial) hst.2
        rw [← hst.1]; exact this
      | str k =>
        rw [ht2] at hr2
        have ha3 : SamePlace s n (m2.emit (.key k)) r2 := hr2 trivial
        refine follows_then fl ha3 (k := fun m => match m.tok with
          | .nameSeparator => .next (getToken fl { m with states := false :: m.states })
          | _ => .fail .syntaxError) fun r3 hr3 => ?_
        have hst3 : (getToken fl (m2.emit (.key k))).states = states ∧ (getToken fl (m2.emit (.key k))).skip = false := hst
        generalize getToken fl (m2.emit (.key k)) = m3 at hr3 hst3 ⊢
        cases ht3 : m3.tok with
        | nameSeparator =>
          rw [ht3] at hr3
          have := follows_next fl (m := { m3 with states := false :: m3.states }) (hr3 trivial) hst3.2
          simp only [hst3.1] at this ⊢
          exact this
        | _ => rfl
      | _ => rfl
    | beginArray =>
      simp only
      have ha : SamePlace s n (Machine.emit ⟨.beginArray, lex, states, false, evs⟩ .startArray) r := h trivial
      refine follows_then fl ha (k := fun m => match m.tok with
        | .endArray => evalStates fl (m.emit .endArray)
        | _ => .next { m with states := true :: m.states }) fun r2 hr2 => ?_
      have hst : (getToken fl (Machine.emit ⟨.beginArray, lex, states, false, evs⟩ .startArray)).states = states ∧
        (getToken fl (Machine.emit ⟨.beginArray, lex, states, false, evs⟩ .startArray)).skip = false := ⟨rfl, rfl⟩
      generalize getToken fl (Machine.emit ⟨.beginArray, lex, states, false, evs⟩ .startArray) = m2 at hr2 hst ⊢
      have other : Follows s n (.next { m2 with states := true :: m2.states }) (Sc.pure (.next m2.tok (true :: states) false) r2) := by
        refine ⟨?_, fun hg => ?_, fun hk => ?_⟩
        · show Turn.next _ _ _ = Turn.next m2.tok (true :: m2.states) m2.skip
          rw [hst.1, hst.2]
        · rcases hg with hg | hg
          · exact hr2 hg
          · have : m2.skip = true := hg
            rw [hst.2] at this; cases this
        · have : m2.skip = true := hk
          rw [hst.2] at this; cases this
      cases ht2 : m2.tok with
      | endArray =>
        rw [ht2] at hr2
        have := follows_states fl (m := m2.emit .endArray) (hr2 trivial) hst.2
        rw [← hst.1]; exact this
      | _ => rw [ht2] at other; exact other
    | float x =>
      simp only
      by_cases hx : fl.finite x
      · simp only [hx, if_true]; exact st trivial _
      · simp only [hx]; rfl
    | litFalse => exact st trivial _
    | litNull => exact st trivial _
    | litTrue => exact st trivial _
    | int i => exact st trivial _
    | str s => exact st trivial _
    | uint u => exact st trivial _
    | _ => rfl

/-- how the loop and the check for the end that follows it end -/
def runVerdict (fl : Floats F) : RunResult F → Verdict
  | .running => .running
  | .fail e => .bad e
  | .done l _ => match (scanToken fl l.pend).1 with
    | .eof => .good
    | _ => .bad .syntaxError

theorem follows_run (fl : Floats F) {s : Bytes} {n : Nat} : ∀ (k : Nat) {m : Machine F} {r : Src}, (Going m.tok → SamePlace s n m r) →
    (m.skip = true → Going m.tok) → (placeRun fl n k m.tok m.states m.skip r).1 = runVerdict fl (run fl k m)
  | 0, m, r, _, _ => rfl
  | k + 1, m, r, h, hs => by
    have := follows_step fl h hs
    rw [placeRun, Sc.bind, run]
    generalize placeStep fl n m.tok m.states m.skip r = p at this ⊢
    obtain ⟨t, r'⟩ := p
    cases hst : step fl m with
    | next m' =>
      rw [hst] at this
      obtain ⟨e, h1, h2⟩ := this
      simp only at e h1
      subst e
      exact follows_run fl k (fun hg => h1 (.inl hg)) h2
    | done l evs =>
      rw [hst] at this
      obtain ⟨e, h1, h2, h3⟩ := this
      simp only at e h1 h2 h3
      subst e
      simp only [runVerdict]
      obtain ⟨r2, e2, -⟩ := token_at fl h1 h3
      rw [Sc.bind, e2, h2]
      simp only
      cases (scanToken fl l.pend).1 <;> rfl
    | fail e =>
      rw [hst] at this
      have e : t = .fail e := this
      subst e
      rfl

theorem at_start (s : Bytes) : At s true (Src.start s) := At.here [] s none rfl

theorem start_pend (s : Bytes) : (Src.start s).pend = s := rfl

theorem first_at (fl : Floats F) (s : Bytes) {n : Nat} (hn : s.length < n) : ∃ r', placeFirst fl n (Src.start s) = ((scanFirst fl s).1, r') ∧
    (Going (scanFirst fl s).1 → At s true r' ∧ r'.pend = (scanFirst fl s).2.pend ∧ r'.pend.length < n) := by
  have h := at_start s
  have other : (getc (Src.start s)).1 ≠ some 0xEF → scanFirst fl s = scanToken fl s →
      ∃ r', placeFirst fl n (Src.start s) = ((scanFirst fl s).1, r') ∧
      (Going (scanFirst fl s).1 → At s true r' ∧ r'.pend = (scanFirst fl s).2.pend ∧ r'.pend.length < n) := by
    intro h1 h2
    rw [h2, placeFirst, if_neg h1]
    obtain ⟨hj, hc, ht, -⟩ := at_get h
    obtain ⟨hu, hp, -⟩ := just_unget hj
    have e : ((getc (Src.start s)).2.unget).pend = s := by
      show (Src.start s).get.unget.pend = s
      rw [hp, hc, ht, start_pend]
      cases s <;> rfl
    have := token_at fl (n := n) hu (by rw [show (Src.start s).get.unget.pend = s from e]; exact hn)
    rw [show (Src.start s).get.unget.pend = s from e] at this
    exact this
  rcases get_cases h with ⟨hp, hc, -⟩ | ⟨c, t, hp, hc, ht, ha, -⟩
  · rw [start_pend] at hp
    refine other ?_ ?_
    · rw [getc, hc]; simp
    · rw [hp]; rfl
  · rw [start_pend] at hp
    by_cases e : c = 0xEF
    · subst e
      have eg : getc (Src.start s) = (some 0xEF, (Src.start s).get) := by rw [getc, hc]
      rw [placeFirst, eg]
      simp only [if_true, Sc.bind]
      generalize (Src.start s).get = r1 at ha ht
      have bad : ∀ t, (∀ t', t ≠ 0xBB :: 0xBF :: t') → (scanFirst fl (0xEF :: t)).1 = .error := by
        intro t ht
        simp only [scanFirst]
      have fail : ∀ (r : Src), (scanFirst fl s).1 = .error → ∃ r', (Sc.pure Token.error r : Token F × Src) = ((scanFirst fl s).1, r') ∧
          (Going (scanFirst fl s).1 → At s true r' ∧ r'.pend = (scanFirst fl s).2.pend ∧ r'.pend.length < n) := by
        intro r e
        rw [e]
        exact ⟨r, rfl, fun h => absurd h (by simp [Going])⟩
      rcases get_cases ha with ⟨hp2, hc2, -⟩ | ⟨c2, t2, hp2, hc2, ht2, ha2, -⟩
      · have eg : getc r1 = (none, r1.get) := by rw [getc, hc2]
        rw [eg]
        simp only [reduceCtorEq, if_false]
        refine fail _ ?_
        rw [hp]; refine bad _ ?_
        rw [← ht, hp2]; intro t' h; cases h
      · have eg : getc r1 = (some c2, r1.get) := by rw [getc, hc2]
        rw [eg]
        by_cases e2 : c2 = 0xBB
        · subst e2
          simp only [if_true]
          generalize r1.get = r2 at ha2 ht2
          rcases get_cases ha2 with ⟨hp3, hc3, -⟩ | ⟨c3, t3, hp3, hc3, ht3, ha3, -⟩
          · have eg : getc r2 = (none, r2.get) := by rw [getc, hc3]
            rw [Sc.bind]
            rw [eg]
            simp only [reduceCtorEq, if_false]
            refine fail _ ?_
            rw [hp]; refine bad _ ?_
            rw [← ht, hp2, ← ht2, hp3]; intro t' h; cases h
          · have eg : getc r2 = (some c3, r2.get) := by rw [getc, hc3]
            rw [Sc.bind]
            rw [eg]
            by_cases e3 : c3 = 0xBF
            · subst e3
              simp only [if_true]
              have hs : s = 0xEF :: 0xBB :: 0xBF :: t3 := by rw [hp, ← ht, hp2, ← ht2, hp3]
              have hl : r2.get.pend.length < n := by
                rw [ht3]; rw [hs] at hn; simp only [List.length_cons] at hn; omega
              have := token_at fl ha3 hl
              rw [ht3] at this
              have e : scanFirst fl s = scanToken fl t3 := by rw [hs]; rfl
              rw [e]; exact this
            · simp only [Option.some.injEq, e3, if_false]
              refine fail _ ?_
              rw [hp]; refine bad _ ?_
              rw [← ht, hp2, ← ht2, hp3]; intro t' h; cases h; exact e3 rfl
        · simp only [Option.some.injEq, e2, if_false]
          refine fail _ ?_
          rw [hp]; refine bad _ ?_
          rw [← ht, hp2]; intro t' h; cases h; exact e2 rfl
    · refine other ?_ ?_
      · rw [getc, hc]; simp only [ne_eq, Option.some.injEq]; exact e
      · rw [hp]
        simp only [scanFirst]
        split
        · rename_i heq; cases heq; exact absurd rfl e
        · rfl

/-- reading with positions ends as reading without them -/
theorem placed_verdict (fl : Floats F) (s : Bytes) : (placed fl s).1 =
    runVerdict fl (run fl (2 * s.length + 2) ⟨(scanFirst fl s).1, (scanFirst fl s).2, [], false, []⟩) := by
  obtain ⟨r', e, h⟩ := first_at fl s (Nat.lt_succ_self s.length)
  rw [placed, Sc.bind, e]
  exact follows_run fl _ (m := ⟨(scanFirst fl s).1, (scanFirst fl s).2, [], false, []⟩) (r := r') h fun hk => by cases hk

end Verif.Json
