import Verif.Strings.Lemmas

/-!
# C11 (replace_all), C12 (paths), C13 (split), C14 (zero padding)
-/

namespace Verif.Strings
open Spec

/-! ## C11 -/

theorem replaceLoop_ok (frm to : Str) (hf : frm ≠ []) (done rest : Str) (fuel : Nat)
    (hfuel : rest.length < fuel) :
    ∃ r, Replaced frm to rest r ∧ replaceLoop frm to fuel (done ++ rest) done.length = .ok (done ++ r) := by
  induction fuel generalizing done rest with
  | zero => omega
  | succ fuel ih =>
    have hfind : find (done ++ rest) frm done.length = findIn frm rest done.length := by
      rw [find, if_neg (by simp), List.drop_left]
    simp only [replaceLoop, hfind]
    cases h : findIn frm rest done.length with
    | none => exact ⟨rest, .done rest (findIn_none _ _ _ h), rfl⟩
    | some j =>
      obtain ⟨p, r, hj, ho⟩ := findIn_some _ _ _ _ h
      have hpos : 0 < frm.length := List.length_pos_iff.2 hf
      have e := ho.1
      have hl := congrArg List.length e
      simp only [List.length_append] at hl
      obtain ⟨r', hr', e'⟩ := ih (done ++ p ++ to) r (by omega)
      refine ⟨p ++ to ++ r', .step rest p r r' ho hr', ?_⟩
      subst hj
      have h1 : (done ++ rest).take (done.length + p.length) = done ++ p := by
        rw [e, List.append_assoc p, ← List.append_assoc done]
        rw [← List.length_append, List.take_left]
      have h2 : (done ++ rest).drop (done.length + p.length + frm.length) = r := by
        have : done ++ rest = (done ++ p ++ frm) ++ r := by rw [e]; simp
        rw [this]
        exact List.drop_left' (by simp; omega)
      simp only [h1, h2]
      have h3 : done.length + p.length + to.length = (done ++ p ++ to).length := by simp; omega
      rw [h3, e']
      simp

/-- **C11** For every string, every non-empty pattern and every replacement, `replace_all`
terminates (within one more evaluation of the loop condition than there are characters)
and yields the string with the non-overlapping occurrences replaced from left to right. -/
theorem C11_replace_all {s frm to : Str} (hf : frm ≠ []) :
    ∃ r, Replaced frm to s r ∧ ∀ fuel, s.length < fuel → replaceAll fuel s frm to = .ok r := by
  obtain ⟨r, hr, e⟩ := replaceLoop_ok frm to hf [] s (s.length + 1) (by omega)
  refine ⟨r, hr, fun fuel hfuel => ?_⟩
  have mono : ∀ f s pos x, replaceLoop frm to f s pos = .ok x → replaceLoop frm to (f + 1) s pos = .ok x := by
    intro f
    induction f with
    | zero => intro s pos x h; simp [replaceLoop] at h
    | succ f ih =>
      intro s pos x h
      rw [replaceLoop] at h ⊢
      cases hfi : find s frm pos with
      | none => rw [hfi] at h; exact h
      | some i => rw [hfi] at h; exact ih _ _ _ h
  have h : ∀ k, replaceLoop frm to (s.length + 1 + k) s 0 = .ok r := by
    intro k
    induction k with
    | zero => simpa using e
    | succ k ih => exact mono _ _ _ _ ih
  obtain ⟨k, rfl⟩ : ∃ k, fuel = s.length + 1 + k := ⟨fuel - (s.length + 1), by omega⟩
  exact h k

example : replaceAll 10 "a.b.c".toList ".".toList "..".toList = .ok "a..b..c".toList := by decide

/-- the specification determines the result -/
theorem C11_spec_functional {frm to s r r' : Str} (h : Replaced frm to s r) (h' : Replaced frm to s r') :
    r = r' := by
  induction h generalizing r' with
  | done s hn =>
    cases h' with
    | done => rfl
    | step _ p q q' ho => exact absurd ho.1 (hn p q)
  | step s p q q' ho _ ih =>
    cases h' with
    | done _ hn => exact absurd ho.1 (hn p q)
    | step _ p2 q2 q2' ho2 hr2 =>
      have hlen : p.length = p2.length :=
        Nat.le_antisymm (ho.2 _ _ ho2.1) (ho2.2 _ _ ho.1)
      have e := ho.1.symm.trans ho2.1
      rw [List.append_assoc, List.append_assoc] at e
      obtain ⟨e1, e2⟩ := List.append_inj e hlen
      have e3 := List.append_cancel_left e2
      subst e1; subst e3
      rw [ih hr2]

/-- **C11** A string without the pattern is returned unchanged. -/
theorem C11_absent (s frm to : Str) (hf : frm ≠ []) (h : ∀ p r, s ≠ p ++ frm ++ r)
    (fuel : Nat) (hfuel : s.length < fuel) : replaceAll fuel s frm to = .ok s := by
  obtain ⟨r, hr, e⟩ := C11_replace_all (s := s) (to := to) hf
  rw [e fuel hfuel, C11_spec_functional hr (.done s h)]

example : ∀ p r, "ab".toList ≠ p ++ "x".toList ++ r := by
  intro p r e
  have : 'x' ∈ "ab".toList := by rw [e]; simp
  simp at this

/-- **C11 fails** for an empty pattern: the call never returns. -/
theorem C11_empty_pattern_fails (s to : Str) (fuel : Nat) : replaceAll fuel s [] to = .diverges := by
  have hfi : ∀ (t : Str) i, findIn [] t i = some i := by
    intro t i; cases t <;> simp [findIn]
  have : ∀ fuel (s : Str) (pos : Nat), pos ≤ s.length → replaceLoop [] to fuel s pos = .diverges := by
    intro fuel
    induction fuel with
    | zero => intros; rfl
    | succ fuel ih =>
      intro s pos hp
      rw [replaceLoop, find, if_neg (by omega), hfi]
      exact ih _ _ (by simp; omega)
  exact this fuel s 0 (by omega)

/-! ## C12 -/

theorem substr_rest (a b : Str) (c : Char) :
    substr (a ++ c :: b) (a.length + 1) ((a ++ c :: b).length - 1) = b := by
  unfold substr
  have : (a ++ c :: b).drop (a.length + 1) = b := by
    have : a ++ c :: b = (a ++ [c]) ++ b := by simp
    rw [this]; exact List.drop_left' (by simp)
  rw [this]
  exact List.take_of_length_le (by simp)

/-- **C12** For every path the base name contains no separator, and the path is the base
name itself or something ending in a separator followed by it. -/
theorem C12_basename (s : Str) :
    '/' ∉ basename s ∧ (('/' ∉ s ∧ basename s = s) ∨ ∃ dir, s = dir ++ '/' :: basename s) := by
  unfold basename
  cases h : rfind '/' s with
  | none => have := (rfind_none _ _).1 h; exact ⟨this, Or.inl ⟨this, rfl⟩⟩
  | some i =>
    obtain ⟨a, b, rfl, rfl, hb⟩ := rfind_some _ _ _ h
    dsimp only
    rw [substr_rest]
    exact ⟨hb, Or.inr ⟨a, rfl⟩⟩

/-- **C12** The file extension is what follows the last dot of the base name, and empty
when there is none. -/
theorem C12_file_extension (s : Str) :
    '.' ∉ fileExtension s ∧ '/' ∉ fileExtension s ∧
    (('.' ∉ basename s ∧ fileExtension s = []) ∨ ∃ stem, basename s = stem ++ '.' :: fileExtension s) := by
  have hb := (C12_basename s).1
  unfold fileExtension
  dsimp only
  cases h : rfind '.' (basename s) with
  | none => exact ⟨by simp, by simp, Or.inl ⟨(rfind_none _ _).1 h, rfl⟩⟩
  | some i =>
    obtain ⟨a, b, e, rfl, hn⟩ := rfind_some _ _ _ h
    rw [e] at hb
    dsimp only
    rw [e, substr_rest]
    exact ⟨hn, fun hh => hb (by simp [hh]), Or.inr ⟨a, rfl⟩⟩

/-- **Full property**: removing the extension removes exactly `.ext` of the base name. -/
def RemovesExtension (s stem : Str) : Prop :=
  ('.' ∉ basename s ∧ stem = s) ∨ ('.' ∈ basename s ∧ s = stem ++ '.' :: fileExtension s)

/-- **C12 fails**: with a dot in a directory and none in the file name, the path is cut
inside the directory. -/
theorem C12_remove_extension_fails :
    ¬ RemovesExtension "a.b/c".toList (removeExtension "a.b/c".toList) ∧
    removeExtension "a.b/c".toList = "a".toList ∧
    splitExtension "a.b/c".toList = ("a".toList, "b/c".toList) := by
  refine ⟨?_, by decide, by decide⟩
  rintro (⟨_, h⟩ | ⟨h, _⟩)
  · revert h; decide
  · revert h; decide

/-- **C12 (partial)** `remove_extension` and `split_extension` are right for every path whose
base name has a dot, and for every path without any dot. -/
theorem C12_remove_extension_partial (s : Str) (h : '.' ∈ basename s ∨ '.' ∉ s) :
    RemovesExtension s (removeExtension s) ∧
    splitExtension s = (removeExtension s, fileExtension s) := by
  have hbs := C12_basename s
  rcases h with h | h
  · obtain ⟨hd, _, h'⟩ := C12_file_extension s
    have h' : ∃ stem, basename s = stem ++ '.' :: fileExtension s := by
      rcases h' with ⟨hn, _⟩ | h'
      · exact absurd h hn
      · exact h'
    obtain ⟨stem, hst⟩ := h'
    obtain ⟨dir, hs⟩ : ∃ dir, s = dir ++ '.' :: fileExtension s := by
      rcases hbs.2 with ⟨_, e⟩ | ⟨dir, e⟩
      · exact ⟨stem, by rw [← e]; simpa [e] using hst⟩
      · exact ⟨dir ++ '/' :: stem, by rw [hst] at e; simpa using e⟩
    generalize he : fileExtension s = ext at *
    cases hr : rfind '.' s with
    | none => exact absurd (by rw [hs]; simp) ((rfind_none _ _).1 hr)
    | some i =>
      obtain ⟨a, b, e, rfl, hb⟩ := rfind_some _ _ _ hr
      have hab : a = dir ∧ b = ext := by
        have e2 : a ++ '.' :: b = dir ++ '.' :: ext := e.symm.trans hs
        have hr2 : ∀ x y : Str, '.' ∉ y → rfind '.' (x ++ '.' :: y) = some x.length := by
          intro x y hy
          induction x with
          | nil => simp [rfind, (rfind_none _ _).2 hy]
          | cons z x ih => simp [rfind, ih]
        have h1 := hr2 a b hb
        have h2 := hr2 dir ext hd
        rw [e2, h2] at h1
        simp only [Option.some.injEq] at h1
        obtain ⟨e3, e4⟩ := List.append_inj e2 h1.symm
        exact ⟨e3, by simpa using e4⟩
      obtain ⟨rfl, rfl⟩ := hab
      have hrem : removeExtension s = a := by
        simp only [removeExtension, hr, substr]; rw [e]; simp
      have hsplit : splitExtension s = (a, b) := by
        simp only [splitExtension, hr, substr]; rw [e]
        simp
      exact ⟨Or.inr ⟨h, by rw [hrem]; simpa [he] using e⟩, by rw [hrem, hsplit]⟩
  · have hr := (rfind_none '.' s).2 h
    have hb : '.' ∉ basename s := by
      rcases hbs.2 with ⟨_, e⟩ | ⟨dir, e⟩
      · rw [e]; exact h
      · intro hh; apply h; rw [e]; simp [hh]
    have hext : fileExtension s = [] := by simp [fileExtension, (rfind_none _ _).2 hb]
    have hrem : removeExtension s = s := by simp [removeExtension, hr]
    exact ⟨Or.inl ⟨hb, hrem⟩, by simp [splitExtension, hr, hrem, hext]⟩

example : '.' ∈ basename "/d.ir/mesh.tar.gz".toList ∨ '.' ∉ "/d.ir/mesh.tar.gz".toList :=
  Or.inl (by decide)

/-- **C12** exactly: `remove_extension` is right if and only if the base name has a dot or the
path has none at all. -/
theorem C12_remove_extension_iff (s : Str) :
    RemovesExtension s (removeExtension s) ↔ '.' ∈ basename s ∨ '.' ∉ s := by
  refine ⟨fun h => ?_, fun h => (C12_remove_extension_partial s h).1⟩
  rcases h with ⟨h1, h2⟩ | ⟨h1, -⟩
  · right
    intro hm
    cases hr : rfind '.' s with
    | none => exact (rfind_none _ _).1 hr hm
    | some i =>
      obtain ⟨a, b, e, rfl, hb⟩ := rfind_some _ _ _ hr
      have hrem : removeExtension s = a := by
        simp only [removeExtension, hr, substr]; rw [e]; simp
      rw [hrem] at h2
      have := congrArg List.length e
      rw [h2] at this
      simp at this
  · exact .inl h1

/-! ## C13 -/

/-- **C13** What `split` does on every string, for delimiters that are plain ASCII: the
maximal pieces between delimiters *and white space*. -/
theorem C13_split_characterisation (s : Str) (delims : List Char) (hd : ∀ d ∈ delims, d.toNat < 128) :
    ∃ ts, split s delims = .ok ts ∧ IsSplit (fun c => c ∈ delims ∨ classicSpace c = true) s ts := by
  unfold split
  by_cases hs : s = []
  · exact ⟨[], by simp [hs], by rw [hs]; exact .done [] (by simp)⟩
  · have hany : delims.any (fun d => d.toNat ≥ 128) = false := by
      rw [List.any_eq_false]; intro d hdm; have := hd d hdm; simp; omega
    refine ⟨extract (tableSpace delims) s, by rw [if_neg hs]; simp [hany], ?_⟩
    refine isSplit_congr (extract_isSplit (tableSpace delims) s) fun c _ => ?_
    simp [tableSpace, List.contains_iff_mem]

/-- **C13 (partial)** If the only white space in the string is among the delimiters, `split`
returns exactly the maximal pieces between delimiters. -/
theorem C13_split_partial (s : Str) (delims : List Char) (hd : ∀ d ∈ delims, d.toNat < 128)
    (hw : ∀ c ∈ s, classicSpace c = true → c ∈ delims) :
    ∃ ts, split s delims = .ok ts ∧ IsSplit (fun c => c ∈ delims) s ts := by
  obtain ⟨ts, e, h⟩ := C13_split_characterisation s delims hd
  exact ⟨ts, e, isSplit_congr h fun c hc => ⟨fun h => h.elim id (hw c hc), Or.inl⟩⟩

example : (∀ d ∈ [',', ' '], d.toNat < 128) ∧ ∀ c ∈ "a, b,,c".toList, classicSpace c = true → c ∈ [',', ' '] := by
  decide

theorem isSplit_functional {d : Char → Prop} {s : Str} {ts ts' : List Str} (h : IsSplit d s ts)
    (h' : IsSplit d s ts') : ts = ts' := by
  -- the first token is determined by the first non-delimiter and the next delimiter
  have uniq : ∀ (a a' b b' : Str) (P : Char → Prop), a ++ b = a' ++ b' → (∀ c ∈ a, P c) → (∀ c ∈ a', P c) →
      (∀ c cs, b = c :: cs → ¬ P c) → (∀ c cs, b' = c :: cs → ¬ P c) → a = a' ∧ b = b' := by
    intro a
    induction a with
    | nil =>
      intro a' b b' P e _ h2 h3 _
      cases a' with
      | nil => exact ⟨rfl, by simpa using e⟩
      | cons x a' => exact absurd (h2 x (by simp)) (h3 x (a' ++ b') (by simpa using e))
    | cons y a ih =>
      intro a' b b' P e h1 h2 h3 h4
      cases a' with
      | nil => exact absurd (h1 y (by simp)) (h4 y (a ++ b) (by simpa using e.symm))
      | cons x a' =>
        simp only [List.cons_append, List.cons.injEq] at e
        obtain ⟨r1, r2⟩ := ih a' b b' P e.2 (fun c hc => h1 c (by simp [hc])) (fun c hc => h2 c (by simp [hc])) h3 h4
        exact ⟨by rw [e.1, r1], r2⟩
  induction h generalizing ts' with
  | done s hall =>
    cases h' with
    | done => rfl
    | token pre t rest ts h1 h2 h3 h4 h5 =>
      cases t with
      | nil => exact absurd rfl h2
      | cons c t => exact absurd (hall c (by simp)) (h3 c (by simp))
  | token pre t rest ts h1 h2 h3 h4 h5 ih =>
    generalize e : pre ++ t ++ rest = s' at h'
    cases h' with
    | done _ hall =>
      subst e
      cases t with
      | nil => exact absurd rfl h2
      | cons c t => exact absurd (hall c (by simp)) (h3 c (by simp))
    | token pre' t' rest' ts' g1 g2 g3 g4 g5 =>
      rw [List.append_assoc, List.append_assoc] at e
      obtain ⟨rfl, e2⟩ := uniq pre pre' _ _ d e h1 g1
        (fun c cs hc => by
          cases t with
          | nil => exact absurd rfl h2
          | cons x t => simp at hc; exact hc.1 ▸ h3 x (by simp))
        (fun c cs hc => by
          cases t' with
          | nil => exact absurd rfl g2
          | cons x t' => simp at hc; exact hc.1 ▸ g3 x (by simp))
      obtain ⟨rfl, rfl⟩ := uniq t t' _ _ (fun c => ¬ d c) e2 h3 g3
        (fun c cs hc => by simp [h4 c cs hc]) (fun c cs hc => by simp [g4 c cs hc])
      rw [ih g5]

theorem isSplit_chars {d : Char → Prop} {s : Str} {ts : List Str} (h : IsSplit d s ts) (c : Char) :
    (∃ t ∈ ts, c ∈ t) ↔ c ∈ s ∧ ¬ d c := by
  induction h with
  | done s hall => simp; exact fun h => hall c h
  | token pre t rest ts h1 h2 h3 h4 h5 ih =>
    simp only [List.mem_cons, exists_eq_or_imp, ih, List.mem_append]
    constructor
    · rintro (h | ⟨h, hn⟩)
      · exact ⟨.inl (.inr h), h3 c h⟩
      · exact ⟨.inr h, hn⟩
    · rintro ⟨(h | h) | h, hn⟩
      · exact absurd (h1 c h) hn
      · exact .inl h
      · exact .inr ⟨h, hn⟩

/-- **C13** exactly: for plain ASCII delimiters, `split` returns the maximal pieces between
delimiters if and only if all white space in the string is among the delimiters. -/
theorem C13_split_iff (s : Str) (delims : List Char) (hd : ∀ d ∈ delims, d.toNat < 128) :
    (∃ ts, split s delims = .ok ts ∧ IsSplit (fun c => c ∈ delims) s ts) ↔
      ∀ c ∈ s, classicSpace c = true → c ∈ delims := by
  refine ⟨?_, C13_split_partial s delims hd⟩
  rintro ⟨ts, e, h⟩ c hc hw
  obtain ⟨ts', e', h'⟩ := C13_split_characterisation s delims hd
  rw [e, Outcome.ok.injEq] at e'
  subst e'
  refine Classical.byContradiction fun hn => ?_
  have := (isSplit_chars h' c).1 ((isSplit_chars h c).2 ⟨hc, hn⟩)
  exact this.2 (.inr hw)

/-- no splitting at commas alone of a text with blanks -/
example : ¬ ∃ ts, split "x, y z".toList [','] = .ok ts ∧ IsSplit (fun c => c ∈ [',']) "x, y z".toList ts := by
  rw [C13_split_iff _ _ (by decide)]; decide

/-- **C13 fails**: splitting at commas also splits at spaces. -/
theorem C13_split_fails :
    ∃ ts, split "a b,c".toList [','] = .ok ts ∧ ¬ IsSplit (fun c => c ∈ [',']) "a b,c".toList ts := by
  obtain ⟨ts, e, hc⟩ := C13_split_characterisation "a b,c".toList [','] (by decide)
  refine ⟨ts, e, fun h => ?_⟩
  have h1 : IsSplit (fun c => c ∈ [','] ∨ classicSpace c = true) "a b,c".toList
      ["a".toList, "b".toList, "c".toList] :=
    .token [] ['a'] " b,c".toList _ (by simp) (by simp) (by decide) (by rintro c cs ⟨⟩; decide)
      (.token [' '] ['b'] ",c".toList _ (by decide) (by simp) (by decide) (by rintro c cs ⟨⟩; decide)
        (.token [','] ['c'] [] _ (by decide) (by simp) (by decide) (by simp) (.done [] (by simp))))
  have h2 : IsSplit (fun c => c ∈ [',']) "a b,c".toList ["a b".toList, "c".toList] :=
    .token [] "a b".toList ",c".toList _ (by simp) (by simp) (by simp) (by simp)
      (.token [','] ['c'] [] _ (by simp) (by simp) (by simp) (by simp) (.done [] (by simp)))
  rw [isSplit_functional hc h1] at h
  exact absurd (isSplit_functional h h2) (by simp)

/-- **C13 fails** for a delimiter outside the ASCII range: undefined behaviour. -/
theorem C13_non_ascii_delimiter_undefined (s : Str) (delims : List Char) (hs : s ≠ [])
    (d : Char) (hd : d ∈ delims) (hn : 128 ≤ d.toNat) : split s delims = .ub := by
  have : delims.any (fun d => d.toNat ≥ 128) = true := List.any_eq_true.2 ⟨d, hd, by simpa using hn⟩
  rw [split, if_neg hs, this]; rfl

example : split ['a', 'b'] [',', 'é'] = .ub :=
  C13_non_ascii_delimiter_undefined ['a', 'b'] [',', 'é'] (by simp) 'é' (by simp) (by decide)

/-! ## C14 -/

/-- **C14** `num_digits n` is the least positive number of decimal digits that can
represent `n`. -/
theorem C14_num_digits (n : Nat) :
    1 ≤ numDigits n ∧ n < 10 ^ numDigits n ∧ ∀ k, 1 ≤ k → n < 10 ^ k → numDigits n ≤ k := by
  induction n using Nat.strongRecOn with
  | ind n ih =>
    by_cases h : n < 10
    · rw [numDigits_small n h]; exact ⟨by omega, by simpa using h, fun k hk _ => hk⟩
    · rw [numDigits_step n h]
      obtain ⟨h1, h2, h3⟩ := ih (n / 10) (by omega)
      refine ⟨by omega, ?_, ?_⟩
      · rw [Nat.pow_succ]; omega
      · intro k hk hn
        obtain ⟨k, rfl⟩ : ∃ m, k = m + 1 := ⟨k - 1, by omega⟩
        rw [Nat.pow_succ] at hn
        have hk1 : 1 ≤ k := by
          rcases Nat.eq_zero_or_pos k with rfl | hk
          · simp at hn; omega
          · exact hk
        have := h3 k hk1 (by omega)
        omega

/-- **C14** For every number and every width, the padded text consists of digits, has the
larger of the width and the number of digits as its length, and reads back as the number. -/
theorem C14_zero_padded (n w : Nat) :
    AllDigits (zeroPadded n w) ∧ (zeroPadded n w).length = max w (numDigits n) ∧
    value (zeroPadded n w) = n := by
  refine ⟨allDigits_zeroPadded n w, ?_, ?_⟩
  · unfold zeroPadded
    rw [List.length_append, List.length_replicate, length_decimal]
    omega
  · unfold zeroPadded
    rw [value_zeros, value_decimal]

/-- **C14** When both numbers fit the width, sorting the padded texts alphabetically sorts
the numbers, and different numbers give different texts. -/
theorem C14_padded_order (m n w : Nat) (hm : m < 10 ^ w) (hn : n < 10 ^ w) (hw : 1 ≤ w) :
    (zeroPadded m w < zeroPadded n w ↔ m < n) ∧ (zeroPadded m w = zeroPadded n w ↔ m = n) := by
  obtain ⟨d1, l1, v1⟩ := C14_zero_padded m w
  obtain ⟨d2, l2, v2⟩ := C14_zero_padded n w
  have k1 := (C14_num_digits m).2.2 w hw hm
  have k2 := (C14_num_digits n).2.2 w hw hn
  refine ⟨?_, ?_⟩
  · rw [digits_lt_iff _ _ d1 d2 (by omega), v1, v2]
  · constructor
    · intro h; rw [← v1, h, v2]
    · intro h; rw [h]

example : (99 : Nat) < 10 ^ 6 ∧ 100000 < 10 ^ 6 := by decide

/-- **C14** The width matters: when a number does not fit, alphabetical order is lost. -/
theorem C14_overflow_breaks_order : zeroPadded 10 1 < zeroPadded 9 1 ∧ ¬ (10 : Nat) < 9 := by
  simp [zeroPadded, decimal, digitChar]
  decide

end Verif.Strings
