import Verif.Macros.Messages
import Verif.Strings.Lemmas
import Mathlib.Tactic.ByContra

/-!
# Properties of the diagnostic messages
-/

namespace Verif.Macros
open Verif.Strings

theorem split_unique {c : Char} {a a' b b' : Str} (h : a ++ c :: b = a' ++ c :: b') (ha : c ∉ a) (ha' : c ∉ a') :
    a = a' ∧ b = b' := by
  induction a generalizing a' with
  | nil =>
    cases a' with
    | nil => simpa using h
    | cons x a' =>
      simp only [List.nil_append, List.cons_append, List.cons.injEq] at h
      simp [h.1] at ha'
  | cons x a ih =>
    cases a' with
    | nil =>
      simp only [List.nil_append, List.cons_append, List.cons.injEq] at h
      simp [h.1] at ha
    | cons y a' =>
      simp only [List.cons_append, List.cons.injEq] at h
      obtain ⟨h1, h2⟩ := ih h.2 (fun hm => ha (by simp [hm])) (fun hm => ha' (by simp [hm]))
      exact ⟨by rw [h.1, h1], h2⟩

theorem decimal_inj {n m : Nat} (h : decimal n = decimal m) : n = m := by
  rw [← value_decimal n, ← value_decimal m, h]

theorem not_mem_decimal {c : Char} (hc : c.toNat < 48 ∨ 57 < c.toNat) (n : Nat) : c ∉ decimal n := by
  intro h
  have := allDigits_decimal n c h
  omega

theorem decimal_digit (n : Nat) (h : n < 10) : decimal n = [digitChar n] := by rw [decimal, if_pos h]

/-- C93: the location printed with an error tells the file, the function and the line, whatever
the file is called -/
theorem C93_location (l l' : Loc) (hf : ' ' ∉ l.func) (hf' : ' ' ∉ l'.func) (h : ristraHere l = ristraHere l') : l = l' := by
  have hr := congrArg List.reverse h
  simp only [ristraHere, List.reverse_append, List.append_assoc, List.reverse_cons, List.reverse_nil, List.nil_append,
    List.cons_append] at hr
  have hL : ∀ n, 'L' ∉ (decimal n).reverse := fun n hm =>
    not_mem_decimal (c := 'L') (by decide) n (List.mem_reverse.mp hm)
  obtain ⟨h1, h2⟩ := split_unique hr (hL _) (hL _)
  simp only [List.cons.injEq, true_and] at h2
  obtain ⟨h3, h4⟩ := split_unique h2 (fun hm => hf (List.mem_reverse.mp hm)) (fun hm => hf' (List.mem_reverse.mp hm))
  simp only [List.cons.injEq, true_and, List.reverse_inj] at h4
  have h1 := decimal_inj (List.reverse_inj.mp h1)
  have h3 := List.reverse_inj.mp h3
  cases l
  cases l'
  simp_all

example : ristraHere ⟨"a :: b.cc".toList, "main".toList, 7⟩ = "a :: b.cc :: main :: L7".toList := by
  rw [ristraHere, decimal_digit 7 (by decide)]
  decide

theorem newline_here (l : Loc) (hf : '\n' ∉ l.file) (hg : '\n' ∉ l.func) : '\n' ∉ ristraHere l := by
  have := not_mem_decimal (c := '\n') (by decide) l.line
  simp [ristraHere, hf, hg, this]

/-- C93: a raised error other than a file error writes, on the error stream only, a line with
the location and then the message; from the text both can be told.  It then throws the class of
the macro, or aborts when exceptions are switched off. -/
theorem C93_report (ex : Bool) (k : Kind) (hk : k ≠ .fileError) (l : Loc) (msg : Str) :
    (raiseError ex l k msg).err = ristraHere l ++ '\n' :: (msg ++ ['\n']) ∧ (raiseError ex l k msg).out = [] ∧
    (ex = true → ∃ t, (raiseError ex l k msg).leave = .throws k t) ∧
    (ex = false → (raiseError ex l k msg).leave = .aborts) ∧
    ∀ l' msg', '\n' ∉ l.file → '\n' ∉ l'.file → '\n' ∉ l.func → '\n' ∉ l'.func → ' ' ∉ l.func → ' ' ∉ l'.func →
      (raiseError ex l k msg).err = (raiseError ex l' k msg').err → l = l' ∧ msg = msg' := by
  have he : ∀ l msg, (raiseError ex l k msg).err = ristraHere l ++ '\n' :: (msg ++ ['\n']) := by
    intro l msg
    simp [raiseError, hk]
  refine ⟨he l msg, rfl, ?_, ?_, ?_⟩
  · rintro rfl
    exact ⟨_, rfl⟩
  · rintro rfl
    rfl
  · intro l' msg' h1 h2 h3 h4 h5 h6 h
    rw [he, he] at h
    obtain ⟨a, b⟩ := split_unique h (newline_here l h1 h3) (newline_here l' h2 h4)
    exact ⟨C93_location l l' h5 h6 a, List.append_cancel_right b⟩

example : (raiseError true ⟨"x.cc".toList, "f".toList, 7⟩ .logic "bad".toList).err = "x.cc :: f :: L7\nbad\n".toList := by
  rw [raiseError, ristraHere, decimal_digit 7 (by decide)]
  decide

/-- C93 fails for the exception object: it carries nothing of the message, so that whoever catches
it cannot tell two errors of a class apart -/
theorem C93_what_fails (l l' : Loc) (k : Kind) (hk : k ≠ .fileError) (msg msg' : Str) :
    (raiseError true l k msg).leave = (raiseError true l' k msg').leave := by
  cases k <;> first | rfl | exact absurd rfl hk

example : (raiseError true ⟨"x.cc".toList, "f".toList, 7⟩ .logic "bad".toList).leave =
      (raiseError true ⟨"y.cc".toList, "g".toList, 8⟩ .logic "worse".toList).leave ∧
    (raiseError true ⟨"x.cc".toList, "f".toList, 7⟩ .logic "bad".toList).err ≠
      (raiseError true ⟨"y.cc".toList, "g".toList, 8⟩ .logic "worse".toList).err :=
  ⟨C93_what_fails _ _ _ (by decide) _ _, by decide⟩

/-- C93: a file error, with exceptions on, throws a text that tells the file -/
theorem C93_file (l l' : Loc) (file file' : Str) :
    (raiseError true l .fileError file).leave = .throws .fileError (fileText ++ file) ∧
    ((raiseError true l .fileError file).leave = (raiseError true l' .fileError file').leave ↔ file = file') := by
  have e : ∀ l f, (raiseError true l .fileError f).leave = .throws .fileError (fileText ++ f) := fun _ _ => rfl
  refine ⟨e l file, ?_⟩
  rw [e, e]
  constructor
  · intro h
    injection h with _ h
    exact List.append_cancel_left h
  · rintro rfl
    rfl

/-- C93 fails for file errors with exceptions off: the program aborts and the file is named nowhere -/
theorem C93_file_abort_fails (l : Loc) (file file' : Str) :
    raiseError false l .fileError file = raiseError false l .fileError file' := rfl

/-- C93: an assertion that holds does nothing at all; one that does not is a run time error with
its message -/
theorem C93_assert (ex : Bool) (l : Loc) (msg : Str) :
    assertTrue ex l true msg = ⟨[], [], .goesOn⟩ ∧
    (assertTrue ex l false msg).err = ristraHere l ++ '\n' :: ("Assertion falied: ".toList ++ msg ++ ['\n']) ∧
    (assertTrue ex l false msg).out = [] ∧
    (assertTrue ex l false msg).leave = if ex then .throws .runTime "general runtime error".toList else .aborts := by
  refine ⟨rfl, ?_, rfl, rfl⟩
  simp [assertTrue, raiseError]

/-- C93: a warning is one line on the output stream, telling the message, and control goes on -/
theorem C93_warning (msg : Str) : shortWarning msg = ⟨[], "Warning ==> ".toList ++ (msg ++ ['\n']), .goesOn⟩ := by
  simp only [shortWarning, List.append_assoc]

/-! ## HERE and HERE_STR -/

/-- C93: where file names have no colon, the text of `HERE_STR` tells file, function, line and
message -/
theorem C93_here_str_partial (l l' : Loc) (s s' : Str) (h1 : ':' ∉ l.file) (h1' : ':' ∉ l'.file) (h2 : ':' ∉ l.func)
    (h2' : ':' ∉ l'.func) (h : hereStr l s = hereStr l' s') : l = l' ∧ s = s' := by
  simp only [hereStr, List.append_assoc, List.singleton_append] at h
  obtain ⟨a1, h⟩ := split_unique h h1 h1'
  obtain ⟨a2, h⟩ := split_unique h h2 h2'
  obtain ⟨a3, h⟩ := split_unique h (not_mem_decimal (by decide) _) (not_mem_decimal (by decide) _)
  have a3 := decimal_inj a3
  cases l
  cases l'
  simp_all

example : hereStr ⟨"x.cc".toList, "f".toList, 7⟩ "hi".toList = "x.cc:f:7 hi".toList := by
  rw [hereStr, decimal_digit 7 (by decide)]
  decide

/-- C93 fails for `HERE_STR` when a file name has colons: two places with one text -/
theorem C93_here_str_fails : hereStr ⟨"a".toList, "f".toList, 1⟩ "x:f:2 y".toList =
    hereStr ⟨"a:f:1 x".toList, "f".toList, 2⟩ "y".toList := by
  rw [hereStr, hereStr, decimal_digit 1 (by decide), decimal_digit 2 (by decide)]
  decide

theorem cstr_eq {s : Str} : cstr s = s ↔ '\x00' ∉ s := by
  induction s with
  | nil => simp [cstr]
  | cons c s ih =>
    by_cases hc : c = '\x00'
    · simp [cstr, hc]
    · simp only [cstr, ne_eq, decide_not] at ih ⊢
      rw [List.takeWhile_cons_of_pos (by simpa using hc)]
      simp only [List.cons.injEq, true_and, ih, List.mem_cons, not_or]
      exact ⟨fun h => ⟨fun e => hc e.symm, h⟩, fun h => h.2⟩

theorem cstr_of {s : Str} (h : '\x00' ∉ s) : cstr s = s := cstr_eq.mpr h

/-- C93, exact condition: `HERE(s)` prints `HERE` and the text of `HERE_STR(s)` only if the function
has the name of the file and the message no null character: the two macros put function and file
in different orders, and one of them cuts the message -/
theorem C93_here_iff (l : Loc) (s : Str) (h1 : ':' ∉ l.file) (h2 : ':' ∉ l.func) (n1 : '\x00' ∉ l.file) (n2 : '\x00' ∉ l.func) :
    hereFunc l s = ['H', 'E', 'R', 'E', ' '] ++ hereStr l s ++ ['\n'] ↔ l.func = l.file ∧ '\x00' ∉ s := by
  rw [hereFunc, hereStr, cstr_of n1, cstr_of n2, ← cstr_eq]
  simp only [List.append_assoc, List.singleton_append, List.append_cancel_left_eq]
  constructor
  · intro h
    obtain ⟨a1, h⟩ := split_unique h h2 h1
    obtain ⟨a2, h⟩ := split_unique h h1 h2
    obtain ⟨a3, h⟩ := split_unique h (not_mem_decimal (by decide) _) (not_mem_decimal (by decide) _)
    exact ⟨a1, List.append_cancel_right h⟩
  · rintro ⟨e, h⟩
    rw [e, h]

/-- C93 fails: `HERE` and `HERE_STR` at one place disagree -/
theorem C93_here_order_fails : hereFunc ⟨"x.cc".toList, "f".toList, 7⟩ "hi".toList = "HERE f:x.cc:7 hi\n".toList ∧
    hereStr ⟨"x.cc".toList, "f".toList, 7⟩ "hi".toList = "x.cc:f:7 hi".toList := by
  rw [hereFunc, hereStr, decimal_digit 7 (by decide)]
  decide

example : ':' ∉ "x.cc".toList ∧ '\x00' ∉ "x.cc".toList := by decide

end Verif.Macros
