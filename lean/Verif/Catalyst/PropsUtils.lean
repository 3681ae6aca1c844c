import Verif.Catalyst.UtilsModel
import Verif.Strings.Lemmas
import Mathlib.Tactic.Linarith
import Mathlib.Tactic.NormNum
import Mathlib.Tactic.Ring
import Mathlib.Tactic.Positivity
import Mathlib.Tactic.GCongr
import Mathlib.Data.Rat.Cast.Order

/-!
# C77, C78, C79: the helpers of the Catalyst adaptor
-/

namespace Verif.Catalyst
open Verif.Strings
open Verif.Strings.Spec (FirstOccurrence)

/-! ## C77: script paths and replacement in strings -/

theorem foldl_snoc {α β : Type} (f : α → β) (xs : List α) (acc : List β) :
    xs.foldl (fun acc x => acc ++ [f x]) acc = acc ++ xs.map f := by
  induction xs generalizing acc with
  | nil => simp
  | cons x xs ih => rw [List.foldl_cons, ih]; simp

/-- **C77** For an input file named by a path with a directory part, the scripts are the listed
names, in order, each in the directory of the input file (everything before the last slash). -/
theorem C77_scripts_partial (dir base : Str) (hb : '/' ∉ base) (xs : List Str) :
    getCatalystScripts (dir ++ '/' :: base) (some xs) = xs.map (fun x => dir ++ '/' :: x) ∧
    getCatalystScripts (dir ++ '/' :: base) none = [] ∧ getCatalystScripts [] (some xs) = [] := by
  have hr : rfind '/' (dir ++ '/' :: base) = some dir.length := by
    cases h : rfind '/' (dir ++ '/' :: base) with
    | none => exact absurd ((rfind_none _ _).1 h) (by simp)
    | some i =>
      obtain ⟨a, b, e, hl, hnb⟩ := rfind_some _ _ _ h
      congr 1
      rw [← hl]
      -- both splits have no slash in the tail
      have key : ∀ (d a b' b : Str), '/' ∉ b' → '/' ∉ b → d ++ '/' :: b' = a ++ '/' :: b → a.length = d.length := by
        intro d
        induction d with
        | nil =>
          intro a b' b h1 h2 e
          cases a with
          | nil => rfl
          | cons x a => rw [List.nil_append, List.cons_append, List.cons.injEq] at e; rw [e.2] at h1; simp at h1
        | cons x d ih =>
          intro a b' b h1 h2 e
          cases a with
          | nil => rw [List.nil_append, List.cons_append, List.cons.injEq] at e; rw [← e.2] at h2; simp at h2
          | cons y a =>
            rw [List.cons_append, List.cons_append, List.cons.injEq] at e
            simp [ih a b' b h1 h2 e.2]
      exact key dir a base b hb hnb e
  refine ⟨?_, ?_, by simp [getCatalystScripts]⟩
  · rw [getCatalystScripts, if_pos (by simp), hr]
    have e := foldl_snoc (fun x : Str => substr (dir ++ '/' :: base) 0 dir.length ++ "/".toList ++ x) xs []
    dsimp only at e ⊢
    rw [e]
    simp [substr]
  · rw [getCatalystScripts, if_pos (by simp)]

example : getCatalystScripts "run/in.json".toList (some ["a.py".toList, "b.py".toList]) =
    ["run/a.py".toList, "run/b.py".toList] := by decide

/-- **C77 fails** for every input file named without a directory: the scripts are looked for
in a directory with the name of the input file, never in the current directory. -/
theorem C77_scripts_no_directory_fails (base : Str) (hne : base ≠ []) (hb : '/' ∉ base) (xs : List Str) :
    getCatalystScripts base (some xs) = xs.map (fun x => base ++ '/' :: x) ∧
    ∀ x ∈ getCatalystScripts base (some xs), x ∉ xs.map (fun y => "./".toList ++ y) ∨ base = ".".toList := by
  have e : getCatalystScripts base (some xs) = xs.map (fun x => base ++ '/' :: x) := by
    rw [getCatalystScripts, if_pos hne, (rfind_none _ _).2 hb]
    have e := foldl_snoc (fun x : Str => base ++ "/".toList ++ x) xs []
    dsimp only at e ⊢
    rw [e]
    simp
  refine ⟨e, fun x hx => ?_⟩
  rw [e] at hx
  obtain ⟨y, _, rfl⟩ := List.mem_map.1 hx
  by_cases h : base = ".".toList
  · exact Or.inr h
  · left
    intro hm
    obtain ⟨z, _, hz⟩ := List.mem_map.1 hm
    apply h
    match base, hne, hb with
    | [c], _, _ =>
      have hz' : '.' :: '/' :: z = c :: '/' :: y := hz
      rw [← (List.cons.inj hz').1]
      rfl
    | c :: d :: r, _, hb =>
      have hz' : '.' :: '/' :: z = c :: d :: (r ++ '/' :: y) := hz
      simp only [List.cons.injEq] at hz'
      simp [← hz'.2.1] at hb

example : getCatalystScripts "in.json".toList (some ["a.py".toList]) = ["in.json/a.py".toList] := by decide

/-- **C77** `replaceInString` replaces the first occurrence and nothing else; the result is
characterised by the text before the first occurrence. -/
theorem C77_replace_first (s pat rep p r : Str) (h : FirstOccurrence pat s p r) :
    replaceInString s pat rep = .ok (p ++ rep ++ r) := by
  rw [replaceInString, find, if_neg (by omega), List.drop_zero]
  cases hf : findIn pat s 0 with
  | none => exact absurd h.1 (findIn_none pat s 0 hf p r)
  | some j =>
    obtain ⟨p', r', hj, h'⟩ := findIn_some pat s 0 j hf
    have hlen : p'.length = p.length := Nat.le_antisymm (h'.2 p r h.1) (h.2 p' r' h'.1)
    rw [Nat.zero_add] at hj
    subst hj
    have e := h.1
    simp only
    congr 1
    rw [hlen, e]
    simp [List.append_assoc, List.drop_append]

/-- **C77 fails** when the text to replace does not occur: the call throws `out_of_range`
instead of returning the string unchanged. -/
theorem C77_replace_absent_fails (s pat rep : Str) (h : ∀ p r, s ≠ p ++ pat ++ r) :
    replaceInString s pat rep = .outOfRange := by
  rw [replaceInString, find, if_neg (by omega), List.drop_zero]
  cases hf : findIn pat s 0 with
  | none => rfl
  | some j =>
    obtain ⟨p', r', _, h'⟩ := findIn_some pat s 0 j hf
    exact absurd h'.1 (h p' r')

example : replaceInString "out-%t-%t.png".toList "%t".toList "07".toList = .ok "out-07-%t.png".toList ∧
    replaceInString "out.png".toList "%t".toList "07".toList = .outOfRange := by decide

/-! ## C78: comparing images and files -/

/-- **C78** Two files compare equal exactly when both can be read and hold the same bytes. -/
theorem C78_compare_files (f1 f2 : Option (List UInt8)) :
    compareFiles f1 f2 = true ↔ ∃ bytes, f1 = some bytes ∧ f2 = some bytes := by
  have key : ∀ a b : List UInt8, a.length = b.length → (equalStreams a b = true ↔ a = b) := by
    intro a
    induction a with
    | nil => intro b h; simp [equalStreams, List.eq_nil_of_length_eq_zero h.symm]
    | cons x a ih =>
      intro b h
      match b, h with
      | y :: b, h =>
        rw [equalStreams]
        by_cases e : x = y
        · rw [if_pos e, ih b (by simpa using h), e]; simp
        · rw [if_neg e]; simp [e]
  cases f1 with
  | none => simp [compareFiles]
  | some a =>
    cases f2 with
    | none => simp [compareFiles]
    | some b =>
      rw [compareFiles]
      by_cases h : a.length = b.length
      · rw [if_neg (by simpa using h), key a b h]
        simp only [Option.some.injEq]
        constructor
        · rintro rfl; exact ⟨a, rfl, rfl⟩
        · rintro ⟨c, rfl, rfl⟩; rfl
      · rw [if_pos h]
        simp only [Bool.false_eq_true, Option.some.injEq, false_iff]
        rintro ⟨c, rfl, rfl⟩
        exact h rfl

example : compareFiles (some [1, 2, 3]) (some [1, 2, 3]) = true ∧ compareFiles (some [1, 2, 3]) (some [1, 2]) = false := by
  decide

/-- the number of places at which two images differ -/
def differences (a b : List UInt8) : Nat := ((a.zip b).filter (fun p => p.1 ≠ p.2)).length

theorem countDiff_eq (a b : List UInt8) (h : a.length = b.length) :
    countDiff a b a.length = differences a b := by
  have fold : ∀ (l : List Nat) (k : Nat), l.foldl (fun n i => if a[i]? ≠ b[i]? then n + 1 else n) k =
      k + (l.filter (fun i => decide (a[i]? ≠ b[i]?))).length := by
    intro l
    induction l with
    | nil => intro k; simp
    | cons i l ih =>
      intro k
      rw [List.foldl_cons, ih, List.filter_cons]
      by_cases e : a[i]? ≠ b[i]?
      · rw [if_pos e, if_pos (by simpa using e)]; simp; omega
      · rw [if_neg e, if_neg (by simpa using e)]
  rw [countDiff, fold, Nat.zero_add, differences]
  clear fold
  induction a generalizing b with
  | nil => simp
  | cons x a ih =>
    match b, h with
    | y :: b, h =>
      have := ih b (by simpa using h)
      rw [List.length_cons, List.range_succ_eq_map, List.filter_cons, List.zip_cons_cons, List.filter_cons,
        List.filter_map]
      simp only [List.getElem?_cons_zero, ne_eq, Option.some.injEq, List.getElem?_cons_succ, Function.comp_def,
        decide_not] at this ⊢
      by_cases e : x = y
      · simp [e, this]
      · simp [e, this]

/-- an image as the decoder delivers it -/
def Image.Valid (A : Image) : Prop :=
  A.data.length = A.width * A.height * A.channels ∧ 0 < A.data.length

/-- what is needed of the rounding to `float`: it keeps zero and signs, and errs by at most
half a unit in the last of 24 places -/
structure IsFloat (fl : ℚ → ℚ) : Prop where
  err : ∀ x, |fl x - x| ≤ |x| / 2 ^ 24

/-- **C78** Images of different shape, or one of which cannot be loaded, are never similar. -/
theorem C78_image_shape (fl : ℚ → ℚ) (imgA imgB : Option Image) (h : imageCompare fl imgA imgB = true) :
    ∃ A B, imgA = some A ∧ imgB = some B ∧ A.width = B.width ∧ A.height = B.height ∧ A.channels = B.channels := by
  cases imgA with
  | none => simp [imageCompare] at h
  | some A =>
    cases imgB with
    | none => simp [imageCompare] at h
    | some B =>
      refine ⟨A, B, rfl, rfl, ?_⟩
      rw [imageCompare] at h
      by_cases h1 : A.width = B.width
      · by_cases h2 : A.height = B.height
        · by_cases h3 : A.channels = B.channels
          · exact ⟨h1, h2, h3⟩
          · simp [h1, h2, h3] at h
        · simp [h1, h2] at h
      · simp [h1] at h

/-- images of another shape are different, whatever the bytes -/
example : ¬ imageCompare id (some ⟨1, 2, 1, [7, 7]⟩) (some ⟨2, 1, 1, [7, 7]⟩) = true := by
  intro h
  obtain ⟨A, B, hA, hB, hw, -⟩ := C78_image_shape _ _ _ h
  cases hA; cases hB; exact absurd hw (by decide)

/-- **C78** For images of one shape the answer is the comparison of the rounded fraction of
differing bytes with 2 percent; the order of the two images does not matter. -/
theorem C78_image_compare (fl : ℚ → ℚ) (A B : Image) (hA : A.Valid) (hB : B.Valid)
    (h1 : A.width = B.width) (h2 : A.height = B.height) (h3 : A.channels = B.channels) :
    (imageCompare fl (some A) (some B) = true ↔
      fl (fl (differences A.data B.data) / fl A.data.length) ≤ 2 / 100) ∧
    imageCompare fl (some A) (some B) = imageCompare fl (some B) (some A) := by
  have hl : A.data.length = B.data.length := by rw [hA.1, hB.1, h1, h2, h3]
  have e1 : imageCompare fl (some A) (some B) = true ↔
      fl (fl (differences A.data B.data) / fl A.data.length) ≤ 2 / 100 := by
    rw [imageCompare, if_neg (by simpa using h1), if_neg (by simpa using h2), if_neg (by simpa using h3)]
    simp only [← hA.1, countDiff_eq _ _ hl]
    split
    · next h => simp only [Bool.false_eq_true, false_iff, not_le]; exact h
    · next h => simp only [true_iff]; exact not_lt.1 h
  have e2 : imageCompare fl (some B) (some A) = true ↔
      fl (fl (differences B.data A.data) / fl B.data.length) ≤ 2 / 100 := by
    rw [imageCompare, if_neg (by simpa using h1.symm), if_neg (by simpa using h2.symm), if_neg (by simpa using h3.symm)]
    simp only [← hB.1, countDiff_eq _ _ hl.symm]
    split
    · next h => simp only [Bool.false_eq_true, false_iff, not_le]; exact h
    · next h => simp only [true_iff]; exact not_lt.1 h
  refine ⟨e1, ?_⟩
  have hs : differences A.data B.data = differences B.data A.data := by
    clear e1 e2 hA hB
    generalize A.data = a at hl ⊢
    generalize B.data = b at hl ⊢
    unfold differences
    induction a generalizing b with
    | nil => simp
    | cons x a ih =>
      match b, hl with
      | y :: b, hl =>
        have := ih b (by simpa using hl)
        rw [List.zip_cons_cons, List.zip_cons_cons, List.filter_cons, List.filter_cons]
        by_cases e : x = y
        · subst e; simpa using this
        · have e' : ¬ y = x := fun h => e h.symm
          simpa [e, e'] using this
  rw [Bool.eq_iff_iff, e1, e2, hs, hl]

/-- one byte of three is too much -/
example : ¬ imageCompare id (some ⟨1, 1, 3, [1, 2, 3]⟩) (some ⟨1, 1, 3, [1, 9, 3]⟩) = true := by
  rw [(C78_image_compare id ⟨1, 1, 3, [1, 2, 3]⟩ ⟨1, 1, 3, [1, 9, 3]⟩ ⟨rfl, by decide⟩ ⟨rfl, by decide⟩ rfl rfl rfl).1]
  have : differences [1, 2, 3] [1, 9, 3] = 1 := by decide
  simp only [this, id]
  norm_num

theorem differences_le (a b : List UInt8) : differences a b ≤ a.length := by
  unfold differences
  refine (List.length_filter_le _ _).trans ?_
  rw [List.length_zip]
  exact Nat.min_le_left _ _

theorem fl_bounds {fl : ℚ → ℚ} (hf : IsFloat fl) (x : ℚ) (hx : 0 ≤ x) :
    x * (1 - 1 / 2 ^ 24) ≤ fl x ∧ fl x ≤ x * (1 + 1 / 2 ^ 24) := by
  have := abs_le.1 (hf.err x)
  rw [abs_of_nonneg hx] at this
  constructor <;> nlinarith [this.1, this.2]

/-- fractions a little below and above 2 percent -/
theorem fraction_threshold {fl : ℚ → ℚ} (hf : IsFloat fl) {d n : ℚ} (hn : 0 < n) (hd0 : 0 ≤ d) :
    (d * 1000000 ≤ 19999 * n → fl (fl d / fl n) ≤ 2 / 100) ∧ (20001 * n ≤ d * 1000000 → ¬ fl (fl d / fl n) ≤ 2 / 100) := by
  obtain ⟨d1, d2⟩ := fl_bounds hf d hd0
  obtain ⟨n1, n2⟩ := fl_bounds hf n hn.le
  have hfn : 0 < fl n := lt_of_lt_of_le (mul_pos hn (by norm_num)) n1
  have hfd : 0 ≤ fl d := le_trans (by apply mul_nonneg hd0; norm_num) d1
  obtain ⟨q1, q2⟩ := fl_bounds hf (fl d / fl n) (div_nonneg hfd hfn.le)
  constructor
  · intro h
    refine q2.trans ?_
    have : fl d / fl n ≤ 199991 / 10000000 := by
      rw [div_le_iff₀ hfn]
      nlinarith
    nlinarith
  · intro h this
    have h2 : 200009 / 10000000 ≤ fl d / fl n := by
      rw [le_div_iff₀ hfn]
      nlinarith
    nlinarith

/-- **C78** Whatever rounding `float` does: images with no difference, or with at most 1.9999
percent of their bytes differing, are similar; with at least 2.0001 percent they are not. -/
theorem C78_image_threshold (fl : ℚ → ℚ) (hf : IsFloat fl) (A B : Image) (hA : A.Valid) (hB : B.Valid)
    (h1 : A.width = B.width) (h2 : A.height = B.height) (h3 : A.channels = B.channels) :
    ((differences A.data B.data : ℚ) * 1000000 ≤ 19999 * A.data.length → imageCompare fl (some A) (some B) = true) ∧
    (20001 * (A.data.length : ℚ) ≤ differences A.data B.data * 1000000 → imageCompare fl (some A) (some B) = false) := by
  have hc := (C78_image_compare fl A B hA hB h1 h2 h3).1
  have hn : (0 : ℚ) < A.data.length := by exact_mod_cast hA.2
  have ht := fraction_threshold hf hn (show (0 : ℚ) ≤ differences A.data B.data by positivity)
  exact ⟨fun h => hc.2 (ht.1 h), fun h => Bool.eq_false_iff.2 fun h' => ht.2 h (hc.1 h')⟩

example : IsFloat id := ⟨fun x => by simp; positivity⟩
example : (⟨1, 1, 3, [1, 2, 3]⟩ : Image).Valid ∧ differences [1, 2, 3] [1, 9, 3] = 1 := by
  unfold Image.Valid; decide

/-! ## C79: the timer -/

/-- some event of the history starts the timer `n` -/
def starts (n : Str) : Event → Prop
  | .start m _ => m = n
  | .stop _ _ => False
/-- the event stops the timer `n` -/
def stops (n : Str) : Event → Prop
  | .stop m _ => m = n
  | .start _ _ => False

/-- `t0` is the time of the last start of `n`, `t1` that of the first stop of `n` after it -/
def FirstStop (es : List Event) (n : Str) (t0 t1 : Int) : Prop :=
  ∃ pre mid post, es = pre ++ Event.start n t0 :: (mid ++ Event.stop n t1 :: post) ∧
    (∀ e ∈ mid, ¬ starts n e ∧ ¬ stops n e) ∧ ∀ e ∈ post, ¬ starts n e

/-- `t0` is the time of the last start of `n`, `t1` that of the last stop of `n`, after it -/
def LastStop (es : List Event) (n : Str) (t0 t1 : Int) : Prop :=
  ∃ pre mid post, es = pre ++ Event.start n t0 :: (mid ++ Event.stop n t1 :: post) ∧
    (∀ e ∈ mid, ¬ starts n e) ∧ ∀ e ∈ post, ¬ starts n e ∧ ¬ stops n e

theorem run_append (t : Timer) (a b : List Event) : t.run (a ++ b) = (t.run a).run b := List.foldl_append ..

theorem run_cons (t : Timer) (e : Event) (es : List Event) : t.run (e :: es) = (t.step e).run es := rfl

theorem step_other (t : Timer) (e : Event) (n : Str) (h : ¬ starts n e) :
    (t.step e).timers n = t.timers n ∧
    (¬ stops n e → (t.step e).durations n = t.durations n) ∧
    (∀ d, t.durations n = some d → (t.step e).durations n = some d) := by
  cases e with
  | start m now =>
    have hm : n ≠ m := fun e => h e.symm
    simp only [Timer.step, Timer.start]
    cases t.timers m <;> simp [Function.update_of_ne hm]
  | stop m now =>
    simp only [Timer.step, Timer.stop, stops]
    cases t.timers m with
    | none => simp
    | some t0 =>
      simp only [true_and]
      cases hd : t.durations m with
      | some d => simp
      | none =>
        constructor
        · intro hm; exact Function.update_of_ne (fun e => hm e.symm) _ _
        · intro d h
          dsimp only
          by_cases e : n = m
          · rw [e, hd] at h; cases h
          · rw [Function.update_of_ne e, h]

theorem run_other (t : Timer) (es : List Event) (n : Str) (h : ∀ e ∈ es, ¬ starts n e) :
    (t.run es).timers n = t.timers n ∧
    ((∀ e ∈ es, ¬ stops n e) → (t.run es).durations n = t.durations n) ∧
    (∀ d, t.durations n = some d → (t.run es).durations n = some d) := by
  induction es generalizing t with
  | nil => exact ⟨rfl, fun _ => rfl, fun _ h => h⟩
  | cons e es ih =>
    obtain ⟨a1, a2, a3⟩ := step_other t e n (h e List.mem_cons_self)
    obtain ⟨b1, b2, b3⟩ := ih (t.step e) (fun e he => h e (List.mem_cons_of_mem _ he))
    rw [run_cons]
    exact ⟨b1.trans a1, fun hs => (b2 fun e he => hs e (List.mem_cons_of_mem _ he)).trans (a2 (hs e List.mem_cons_self)),
      fun d hd => b3 d (a3 d hd)⟩

/-- a duration exists only for a timer that was started -/
theorem run_inv (t : Timer) (es : List Event) (h : ∀ n, t.timers n = none → t.durations n = none) :
    ∀ n, (t.run es).timers n = none → (t.run es).durations n = none := by
  induction es generalizing t with
  | nil => exact h
  | cons e es ih =>
    rw [run_cons]
    apply ih
    intro n hn
    cases e with
    | start m now =>
      simp only [Timer.step, Timer.start] at hn ⊢
      cases hm : t.timers m with
      | none =>
        simp only [hm] at hn ⊢
        by_cases e : n = m
        · subst e; simp at hn
        · rw [Function.update_of_ne e] at hn; exact h n hn
      | some t0 =>
        simp only [hm] at hn ⊢
        by_cases e : n = m
        · subst e; simp at hn
        · rw [Function.update_of_ne e] at hn ⊢; exact h n hn
    | stop m now =>
      simp only [Timer.step, Timer.stop] at hn ⊢
      cases hm : t.timers m with
      | none => simp only [hm] at hn ⊢; exact h n hn
      | some t0 =>
        simp only [hm] at hn ⊢
        cases hd : t.durations m with
        | some d => exact h n hn
        | none =>
          by_cases e : n = m
          · subst e; rw [hm] at hn; cases hn
          · simp only; rw [Function.update_of_ne e]; exact h n hn

theorem start_state (t : Timer) (n : Str) (now : Int) (h : ∀ n, t.timers n = none → t.durations n = none) :
    (t.start n now).timers n = some now ∧ (t.start n now).durations n = none := by
  unfold Timer.start
  cases hm : t.timers n with
  | none => simp [h n hm]
  | some t0 => simp

/-- **C79** What `getDuration` reports, for every history of any number of timers in one
object, interleaved in any way: the time from the last start to the *first* stop after it; -1
if the timer was never started, or not stopped since its last start. -/
theorem C79_get_duration (es : List Event) (n : Str) :
    (∀ t0 t1, FirstStop es n t0 t1 → (Timer.new.run es).getDuration n = t1 - t0) ∧
    ((∀ e ∈ es, ¬ starts n e) → (Timer.new.run es).getDuration n = -1) ∧
    (∀ pre t0 post, es = pre ++ Event.start n t0 :: post → (∀ e ∈ post, ¬ starts n e ∧ ¬ stops n e) →
      (Timer.new.run es).getDuration n = -1) := by
  have hinv : ∀ es : List Event, ∀ n, (Timer.new.run es).timers n = none → (Timer.new.run es).durations n = none :=
    fun es => run_inv Timer.new es (fun _ _ => rfl)
  refine ⟨?_, ?_, ?_⟩
  · rintro t0 t1 ⟨pre, mid, post, rfl, hm, hp⟩
    rw [run_append, run_cons, run_append, run_cons]
    obtain ⟨s1, s2⟩ := start_state (Timer.new.run pre) n t0 (hinv pre)
    obtain ⟨m1, m2, _⟩ := run_other ((Timer.new.run pre).step (.start n t0)) mid n (fun e he => (hm e he).1)
    have m2 := m2 (fun e he => (hm e he).2)
    have e1 : (((Timer.new.run pre).step (.start n t0)).run mid).timers n = some t0 := m1.trans s1
    have e2 : (((Timer.new.run pre).step (.start n t0)).run mid).durations n = none := m2.trans s2
    generalize ((Timer.new.run pre).step (.start n t0)).run mid = T at e1 e2 ⊢
    have hs : (T.step (.stop n t1)).durations n = some (t1 - t0) := by
      simp [Timer.step, Timer.stop, e1, e2]
    have := (run_other (T.step (.stop n t1)) post n hp).2.2 _ hs
    rw [Timer.getDuration, this]
  · intro h
    have h1 := (run_other Timer.new es n h).1
    rw [Timer.getDuration, hinv es n h1]
  · rintro pre t0 post rfl hp
    rw [run_append, run_cons]
    obtain ⟨s1, s2⟩ := start_state (Timer.new.run pre) n t0 (hinv pre)
    have := (run_other ((Timer.new.run pre).step (.start n t0)) post n (fun e he => (hp e he).1)).2.1
      (fun e he => (hp e he).2)
    rw [Timer.getDuration, this, show ((Timer.new.run pre).step (.start n t0)).durations n = none from s2]

/-- **C79** as far as it holds: with exactly one stop since the last start, the duration is the
time between them.  (Missing: a timer stopped again, see `C79_second_stop_fails`.) -/
theorem C79_last_stop_partial (es : List Event) (n : Str) (t0 t1 : Int) (h : FirstStop es n t0 t1)
    (t1' : Int) (hl : LastStop es n t0 t1') (huniq : t1 = t1') :
    (Timer.new.run es).getDuration n = t1' - t0 := by
  rw [(C79_get_duration es n).1 t0 t1 h, huniq]

/-- another timer is stopped in between -/
example : (Timer.new.run [.start "a".toList 3, .start "b".toList 4, .stop "b".toList 5, .stop "a".toList 10]).getDuration
    "a".toList = 10 - 3 := by
  refine C79_last_stop_partial _ _ 3 10 ?_ 10 ?_ rfl <;>
    exact ⟨[], [.start "b".toList 4, .stop "b".toList 5], [], rfl, by simp [starts, stops], by simp⟩

/-- **C79 fails**: a second `stop` is ignored (`insert` does not replace the first duration):
start at 0, stop at 1, stop at 5 gives 1. -/
theorem C79_second_stop_fails (n : Str) :
    LastStop [.start n 0, .stop n 1, .stop n 5] n 0 5 ∧
    (Timer.new.run [.start n 0, .stop n 1, .stop n 5]).getDuration n = 1 := by
  refine ⟨⟨[], [.stop n 1], [], rfl, ?_, by simp⟩, ?_⟩
  · intro e he
    rw [List.mem_singleton] at he
    subst he
    exact id
  · have := (C79_get_duration [.start n 0, .stop n 1, .stop n 5] n).1 0 1
      ⟨[], [], [.stop n 5], rfl, by simp, by
        intro e he
        rw [List.mem_singleton] at he
        subst he
        exact id⟩
    simpa using this

/-- **C79**, exactly: the duration reported is the time from the last start to the last stop if and
only if the first stop after that start came at the same time as the last. -/
theorem C79_last_stop_iff (es : List Event) (n : Str) (t0 t1 t1' : Int) (h : FirstStop es n t0 t1)
    (_hl : LastStop es n t0 t1') : (Timer.new.run es).getDuration n = t1' - t0 ↔ t1 = t1' := by
  rw [(C79_get_duration es n).1 t0 t1 h]
  omega

example : FirstStop [.start [] 0, .stop [] 1, .stop [] 5] [] 0 1 ∧ LastStop [.start [] 0, .stop [] 1, .stop [] 5] [] 0 5 :=
  ⟨⟨[], [], [.stop [] 5], rfl, by simp, by simp [starts]⟩, ⟨[], [.stop [] 1], [], rfl, by simp [starts], by simp⟩⟩

/-- **C79** `stop` reports success exactly for a timer started before, and `start` makes the
time of the last start the one that counts. -/
theorem C79_stop_result (es : List Event) (n : Str) (now : Int) :
    ((Timer.new.run es).stop n now).2 = 1 ↔ ∃ e ∈ es, starts n e := by
  have key : ∀ (t : Timer) (es : List Event), (t.run es).timers n = none ↔ t.timers n = none ∧ ∀ e ∈ es, ¬ starts n e := by
    intro t es
    induction es generalizing t with
    | nil => simp [Timer.run]
    | cons e es ih =>
      rw [run_cons, ih]
      by_cases hs : starts n e
      · have : (t.step e).timers n ≠ none := by
          cases e with
          | stop m now => exact hs.elim
          | start m now =>
            obtain rfl : m = n := hs
            simp only [Timer.step, Timer.start]
            cases t.timers m <;> simp
        simp [this, hs]
      · rw [(step_other t e n hs).1]
        simp [hs]
  have h := key Timer.new es
  unfold Timer.stop
  cases ht : (Timer.new.run es).timers n with
  | none =>
    have := (h.1 ht).2
    simp only [show ((-1 : Int) = 1) ↔ False by decide, false_iff, not_exists, not_and]
    exact this
  | some t0 =>
    simp only [true_iff]
    by_contra hc
    push Not at hc
    have := h.2 ⟨rfl, hc⟩
    rw [ht] at this
    cases this

example : (Timer.new.run [.start "a".toList 3, .start "b".toList 4, .stop "a".toList 10]).getDuration "a".toList = 7 := by
  decide

end Verif.Catalyst
