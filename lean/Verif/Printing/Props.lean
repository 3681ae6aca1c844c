import Verif.Printing.Model
import Verif.MultiArray.Props
import Verif.LuaStack.Lemmas
import Verif.LuaStack.Demo

/-!
# Properties of the output operators
-/

namespace Verif.Printing
namespace Spec

/-- reading a text word by word, as `std::istream >> std::string` does; `cur` is the word begun -/
def wordsFrom (cur : Text) : Text → List Text
  | [] => if cur = [] then [] else [cur]
  | c :: t =>
    if c.isWhitespace then (if cur = [] then wordsFrom [] t else cur :: wordsFrom [] t)
    else wordsFrom (cur ++ [c]) t

/-- the words of a text -/
def words (t : Text) : List Text := wordsFrom [] t

/-- a text that reads as one word -/
def Word (t : Text) : Prop := t ≠ [] ∧ ∀ c ∈ t, c.isWhitespace = false

/-- the texts between brackets, each after a blank -/
def bracketed (o c : Char) (ts : List Text) : Text := o :: (ts.flatMap fun t => ' ' :: t) ++ [' ', c]

/-- on a stream without a field width, elements are inserted as the text `txt` gives -/
def Inserts {T : Type} (ins : Stream → T → Stream) (txt : T → Text) : Prop :=
  ∀ out t, ins ⟨out, 0⟩ t = ⟨out ++ txt t, 0⟩

end Spec
open Spec

/-! ## words -/

theorem wordsFrom_append (a b : Text) (cur : Text) (c : Char) (hc : c.isWhitespace = true) :
    wordsFrom cur (a ++ c :: b) = wordsFrom cur a ++ words b := by
  induction a generalizing cur with
  | nil =>
    by_cases h : cur = [] <;> simp [wordsFrom, words, hc, h]
  | cons d a ih =>
    by_cases hd : d.isWhitespace <;> by_cases h : cur = [] <;> simp [wordsFrom, hd, h, ih]

theorem words_append (a b : Text) (c : Char) (hc : c.isWhitespace = true) :
    words (a ++ c :: b) = words a ++ words b := wordsFrom_append a b [] c hc

theorem words_blank (b : Text) (c : Char) (hc : c.isWhitespace = true) : words (c :: b) = words b := by
  simp [words, wordsFrom, hc]

theorem wordsFrom_word (t cur : Text) (ht : ∀ c ∈ t, c.isWhitespace = false) (h : cur ++ t ≠ []) :
    wordsFrom cur t = [cur ++ t] := by
  induction t generalizing cur with
  | nil => simp at h; simp [wordsFrom, h]
  | cons d t ih =>
    have hd : d.isWhitespace = false := ht d (by simp)
    rw [wordsFrom, hd]
    simp only [Bool.false_eq_true, if_false]
    rw [ih (cur ++ [d]) (fun c hc => ht c (by simp [hc])) (by simp)]
    simp

theorem words_word (t : Text) (ht : Word t) : words t = [t] := by
  have := wordsFrom_word t [] ht.2 (by simpa using ht.1)
  simpa [words] using this

theorem words_bracketed (o c : Char) (ho : o.isWhitespace = false) (hc : c.isWhitespace = false) (ts : List Text) :
    words (bracketed o c ts) = [o] :: (ts.flatMap words ++ [[c]]) := by
  have hb : (' ').isWhitespace = true := rfl
  have hlast : words [c] = [[c]] := words_word _ ⟨by simp, by simpa using hc⟩
  have ho' : words [o] = [[o]] := words_word _ ⟨by simp, by simpa using ho⟩
  have key : ∀ ts : List Text, words ((ts.flatMap fun t => ' ' :: t) ++ [' ', c]) = ts.flatMap words ++ [[c]] := by
    intro ts
    induction ts with
    | nil => simp [words_blank _ _ hb, hlast]
    | cons t ts ih =>
      cases ts with
      | nil =>
        simp only [List.flatMap_cons, List.flatMap_nil, List.append_nil, List.cons_append]
        rw [words_blank _ _ hb, words_append t [c] ' ' hb, hlast]
      | cons u us =>
        simp only [List.flatMap_cons, List.cons_append, List.append_assoc] at ih ⊢
        rw [words_blank _ _ hb, words_append _ _ ' ' hb]
        rw [words_blank _ _ hb] at ih
        rw [ih]
  unfold bracketed
  cases ts with
  | nil => rw [show o :: ([] : List Text).flatMap (fun t => ' ' :: t) ++ [' ', c] = [o] ++ ' ' :: [c] from rfl,
      words_append _ _ _ hb, ho', hlast]; rfl
  | cons t ts =>
    have := key (t :: ts)
    simp only [List.flatMap_cons, List.cons_append, List.append_assoc] at this ⊢
    rw [words_blank _ _ hb] at this
    rw [show ∀ r, o :: ' ' :: r = [o] ++ ' ' :: r from fun _ => rfl, words_append _ _ _ hb, ho', this]
    simp

theorem flatten_inj {α : Type} (k : Nat) (hk : 0 < k) (L L' : List (List α)) (h : ∀ x ∈ L, x.length = k)
    (h' : ∀ x ∈ L', x.length = k) (e : L.flatten = L'.flatten) : L = L' := by
  induction L generalizing L' with
  | nil =>
    cases L' with
    | nil => rfl
    | cons y L' =>
      have := h' y (by simp)
      have := congrArg List.length e
      simp at this; omega
  | cons x L ih =>
    cases L' with
    | nil =>
      have h1 := h x (by simp)
      have h2 := congrArg List.length e
      simp only [List.flatten_cons, List.length_append, List.flatten_nil, List.length_nil] at h2
      omega
    | cons y L' =>
      simp only [List.flatten_cons] at e
      obtain ⟨e1, e2⟩ := List.append_inj e (by rw [h x (by simp), h' y (by simp)])
      rw [e1, ih L' (fun z hz => h z (by simp [hz])) (fun z hz => h' z (by simp [hz])) e2]

theorem map_inj {α β : Type} (f : α → β) (hf : ∀ x y, f x = f y → x = y) {a b : List α} (e : a.map f = b.map f) : a = b := by
  induction a generalizing b with
  | nil => cases b with | nil => rfl | cons y b => simp at e
  | cons x a ih =>
    cases b with
    | nil => simp at e
    | cons y b =>
      simp only [List.map_cons, List.cons.injEq] at e
      rw [hf x y e.1, ih e.2]

/-! ## arrays -/

section
variable {T : Type} (ins : Stream → T → Stream) (txt : T → Text)

theorem put_zero (out t : Text) : Stream.put ⟨out, 0⟩ t = ⟨out ++ t, 0⟩ := by simp [Stream.put]

theorem fold_text (h : Inserts ins txt) (out : Text) (a : List T) :
    a.foldl (fun s i => ins (s.put [' ']) i) ⟨out, 0⟩ = ⟨out ++ (a.map txt).flatMap fun t => ' ' :: t, 0⟩ := by
  induction a generalizing out with
  | nil => simp
  | cons x a ih =>
    rw [List.foldl_cons, put_zero, h, ih]
    simp

/-- **C87** An array is printed as its elements in order, each after a blank, between round
brackets.  A field width set before (`std::setw`) pads the opening bracket alone. -/
theorem C87_array (h : Inserts ins txt) (out : Text) (w : Nat) (a : List T) :
    printArray ins ⟨out, w⟩ a = ⟨out ++ (List.replicate (w - 1) ' ' ++ bracketed '(' ')' (a.map txt)), 0⟩ := by
  rw [printArray]
  show Stream.put (a.foldl _ (Stream.mk (out ++ (List.replicate (w - 1) ' ' ++ ['('])) 0)) _ = _
  rw [fold_text ins txt h, put_zero]
  simp [bracketed]

/-- decimal digits -/
def insNat (s : Stream) (n : Nat) : Stream := s.put (Nat.toDigits 10 n)

theorem insNat_inserts : Inserts insNat (Nat.toDigits 10) := fun out _ => put_zero out _

example : (printArray insNat ⟨[], 0⟩ [1, 20, 3]).out = "( 1 20 3 )".toList := by decide
example : (printArray insNat ⟨[], 4⟩ [1, 20, 3]).out = "   ( 1 20 3 )".toList := by decide

theorem printLoop_eq (h : Inserts ins txt) (a : List T) (out : Text) (i k : Nat) (hk : i + k = a.length) :
    printLoop ins a ⟨out, 0⟩ i k = .ok ⟨out ++ ((a.drop i).map txt).flatMap fun t => ' ' :: t, 0⟩ := by
  induction k generalizing i out with
  | zero =>
    have : a.drop i = [] := List.drop_eq_nil_of_le (by omega)
    simp [printLoop, this]
  | succ k ih =>
    have hi : i < a.length := by omega
    have hl : MultiArray.load a i = .ok a[i] := by simp [MultiArray.load, hi]
    rw [printLoop, hl, Outcome.bind_ok, put_zero, h, ih _ _ (by omega), List.drop_eq_getElem_cons hi]
    simp only [List.map_cons, List.flatMap_cons, List.append_assoc, List.singleton_append, List.cons_append, List.nil_append]

/-- **C87** A dimensioned array is printed the same way between square brackets. -/
theorem C87_dimensioned_array (h : Inserts ins txt) (out : Text) (w : Nat) (a : List T) :
    printDim ins ⟨out, w⟩ a a.length
      = .ok ⟨out ++ (List.replicate (w - 1) ' ' ++ bracketed '[' ']' (a.map txt)), 0⟩ := by
  rw [printDim]
  show (printLoop ins a (Stream.mk (out ++ (List.replicate (w - 1) ' ' ++ ['['])) 0) 0 a.length >>= _) = _
  rw [printLoop_eq ins txt h a _ 0 a.length (by omega), Outcome.bind_ok, put_zero]
  simp [bracketed]

example : printDim insNat ⟨[], 0⟩ [1, 20, 3] 3 = .ok ⟨"[ 1 20 3 ]".toList, 0⟩ := by decide

/-- **C87** Read back word by word, a printed array is the opening bracket, the words of the
elements in order, and the closing bracket, whatever the elements are. -/
theorem C87_array_words (h : Inserts ins txt) (a : List T) :
    words (printArray ins ⟨[], 0⟩ a).out = ['('] :: ((a.flatMap fun x => words (txt x)) ++ [[')']]) ∧
    ∃ s, printDim ins ⟨[], 0⟩ a a.length = .ok s ∧
      words s.out = ['['] :: ((a.flatMap fun x => words (txt x)) ++ [[']']]) := by
  refine ⟨?_, _, C87_dimensioned_array ins txt h [] 0 a, ?_⟩
  · rw [C87_array ins txt h]
    simp only [Nat.zero_sub, List.replicate_zero, List.nil_append]
    rw [words_bracketed _ _ rfl rfl, List.flatMap_map]
  · simp only [Nat.zero_sub, List.replicate_zero, List.nil_append]
    rw [words_bracketed _ _ rfl rfl, List.flatMap_map]

/-- **C87** The printed form determines the array: if every element reads as the same number
`k > 0` of words and different elements read differently (`k = 1` for numbers, more for nested
arrays), then arrays that print alike are equal, even when their lengths are not known. -/
theorem C87_array_injective (h : Inserts ins txt) (k : Nat) (hk : 0 < k) (hw : ∀ x, (words (txt x)).length = k)
    (hi : ∀ x y, words (txt x) = words (txt y) → x = y) (a b : List T)
    (e : (printArray ins ⟨[], 0⟩ a).out = (printArray ins ⟨[], 0⟩ b).out) : a = b := by
  have e' := congrArg words e
  rw [(C87_array_words ins txt h a).1, (C87_array_words ins txt h b).1] at e'
  have e2 := List.append_cancel_right (List.cons.inj e').2
  rw [List.flatMap_def, List.flatMap_def] at e2
  have e3 := flatten_inj k hk _ _ (by simp [hw]) (by simp [hw]) e2
  exact map_inj _ hi e3

/-- **C87** An array of arrays of `k` elements each prints with one more level of brackets and is
again determined by its printed form, so the theorem above applies to every depth of nesting. -/
theorem C87_nested (h : Inserts ins txt) :
    Inserts (printArray ins) (fun a => bracketed '(' ')' (a.map txt)) ∧
    ∀ (k n : Nat), (∀ x, (words (txt x)).length = k) → (∀ x y, words (txt x) = words (txt y) → x = y) → 0 < k →
      (∀ a : List T, a.length = n → (words (bracketed '(' ')' (a.map txt))).length = n * k + 2) ∧
      (∀ a b : List T, words (bracketed '(' ')' (a.map txt)) = words (bracketed '(' ')' (b.map txt)) → a = b) := by
  refine ⟨fun out a => by rw [C87_array ins txt h]; simp, fun k n hw hi hk => ⟨fun a ha => ?_, fun a b e => ?_⟩⟩
  · rw [words_bracketed _ _ rfl rfl, List.flatMap_map]
    have : (a.flatMap fun x => words (txt x)).length = a.length * k := by
      induction a generalizing n with
      | nil => simp
      | cons x a ih =>
        rw [List.flatMap_cons, List.length_append, hw, ih _ rfl, List.length_cons, Nat.succ_mul, Nat.add_comm]
    simp [this, ha]
  · rw [words_bracketed _ _ rfl rfl, words_bracketed _ _ rfl rfl, List.flatMap_map, List.flatMap_map] at e
    have e2 := List.append_cancel_right (List.cons.inj e).2
    rw [List.flatMap_def, List.flatMap_def] at e2
    have e3 := flatten_inj k hk _ _ (by simp [hw]) (by simp [hw]) e2
    exact map_inj _ hi e3

example : (printArray (printArray insNat) ⟨[], 0⟩ [[1, 2], [3, 4]]).out = "( ( 1 2 ) ( 3 4 ) )".toList := by decide

end

/-- `bool` prints as 0 or 1 -/
def boolText (b : Bool) : Text := if b then ['1'] else ['0']

/-- inserting a `bool` -/
def insBool (s : Stream) (b : Bool) : Stream := s.put (boolText b)

example : Inserts insBool boolText ∧ (∀ x, (words (boolText x)).length = 1) ∧
    (∀ x y, words (boolText x) = words (boolText y) → x = y) ∧ (∀ x, Word (boolText x)) ∧
    (∀ x y, boolText x = boolText y → x = y) := by
  refine ⟨fun out t => put_zero out _, by decide, by decide, fun x => ?_, by decide⟩
  cases x <;> simp [Word, boolText] <;> decide

/-- a stream inserter of texts -/
def insText (s : Stream) (t : Text) : Stream := s.put t

/-- **C87** fails for elements whose text contains blanks: two different arrays of two strings
print alike. -/
theorem C87_array_injective_fails :
    ∃ a b : List Text, a.length = 2 ∧ b.length = 2 ∧ a ≠ b ∧
      (printArray insText ⟨[], 0⟩ a).out = (printArray insText ⟨[], 0⟩ b).out :=
  ⟨["a b".toList, "c".toList], ["a".toList, "b c".toList], rfl, rfl, by decide, by decide⟩

/-- **C87** fails for the field width: `std::setw` before an array does not pad the printed array
to that width, nor does it reach the elements. -/
theorem C87_width_fails :
    ∃ (a : List Nat) (w : Nat), (printArray insNat ⟨[], 0⟩ a).out.length < w ∧
      (printArray insNat ⟨[], w⟩ a).out.length ≠ w :=
  ⟨[1, 2], 10, by decide, by decide⟩

/-! ## matrices -/

section
variable {T : Type} (ins : Stream → T → Stream) (txt : T → Text)

theorem cell_lt {D1 D2 i j : Nat} (hi : i < D1) (hj : j < D2) : i * D2 + j < D1 * D2 :=
  calc i * D2 + j < i * D2 + D2 := by omega
    _ = (i + 1) * D2 := by rw [Nat.succ_mul]
    _ ≤ D1 * D2 := Nat.mul_le_mul_right _ hi

theorem call_two (D1 D2 : Nat) (a : List T) (ha : a.length = D1 * D2) (i j : Nat) (hi : i < D1) (hj : j < D2) :
    MultiArray.call [D1, D2] a [i, j] = .ok (a[i * D2 + j]'(ha ▸ cell_lt hi hj)) := by
  have hs : a.length = MultiArray.elements [D1, D2] := by simp [MultiArray.elements, ha]
  obtain ⟨hlt, e, _⟩ := MultiArray.access_eq [D1, D2] a hs [i, j] (by simp [MultiArray.Spec.InRange, hi, hj])
  rw [e]
  congr 1
  have : MultiArray.rank [i, j] [D1, D2] = i * D2 + j := by simp [MultiArray.rank, MultiArray.Spec.count]
  simp [this]

/-- the entry in row `i` and column `j` of a matrix stored row by row -/
def entry (D1 D2 : Nat) (a : List T) (ha : a.length = D1 * D2) (i : Fin D1) (j : Fin D2) : T :=
  a[i.1 * D2 + j.1]'(ha ▸ cell_lt i.2 j.2)

theorem printColumn_eq (h : Inserts ins txt) (D1 D2 : Nat) (a : List T) (ha : a.length = D1 * D2) (j : Fin D2)
    (out : Text) (i k : Nat) (hk : i + k = D1) :
    printColumn ins [D1, D2] a j ⟨out, 0⟩ i k
      = .ok ⟨out ++ (((List.finRange D1).drop i).map fun i => txt (entry D1 D2 a ha i j)).flatMap fun t => ' ' :: t, 0⟩ := by
  induction k generalizing i out with
  | zero =>
    have : (List.finRange D1).drop i = [] := List.drop_eq_nil_of_le (by simp; omega)
    simp [printColumn, this]
  | succ k ih =>
    have hi : i < D1 := by omega
    rw [printColumn, call_two D1 D2 a ha i j hi j.2, Outcome.bind_ok, put_zero, h, ih _ _ (by omega),
      List.drop_eq_getElem_cons (l := List.finRange D1) (i := i) (by simpa using hi)]
    simp [entry]

theorem printColumns_eq (h : Inserts ins txt) (D1 D2 : Nat) (a : List T) (ha : a.length = D1 * D2)
    (out : Text) (j k : Nat) (hk : j + k = D2) :
    printColumns ins D1 D2 a ⟨out, 0⟩ j k
      = .ok ⟨out ++ ((List.finRange D2).drop j).flatMap fun j =>
          bracketed '[' ']' ((List.finRange D1).map fun i => txt (entry D1 D2 a ha i j)) ++ ['\n'], 0⟩ := by
  induction k generalizing j out with
  | zero =>
    have : (List.finRange D2).drop j = [] := List.drop_eq_nil_of_le (by simp; omega)
    simp [printColumns, this]
  | succ k ih =>
    have hj : j < D2 := by omega
    have e := printColumn_eq ins txt h D1 D2 a ha ⟨j, hj⟩ (out ++ ['[']) 0 D1 (by omega)
    simp only [List.drop_zero] at e
    rw [printColumns, put_zero, e, Outcome.bind_ok, put_zero]
    show printColumns ins D1 D2 a ⟨_ ++ ['\n'], 0⟩ (j + 1) k = _
    rw [ih _ _ (by omega), List.drop_eq_getElem_cons (l := List.finRange D2) (i := j) (by simpa using hj)]
    simp [bracketed]

/-- the text with one line for each column -/
def columnText (D1 D2 : Nat) (m : Fin D1 → Fin D2 → T) : Text :=
  (List.finRange D2).flatMap fun j => bracketed '[' ']' ((List.finRange D1).map fun i => txt (m i j)) ++ ['\n']

/-- the text with one line for each row -/
def rowText (D1 D2 : Nat) (m : Fin D1 → Fin D2 → T) : Text :=
  (List.finRange D1).flatMap fun i => bracketed '[' ']' ((List.finRange D2).map fun j => txt (m i j)) ++ ['\n']

/-- **C87** A matrix is printed without error as one bracketed line for each column: line `j`
holds the entries `a(0,j), a(1,j), …`. -/
theorem C87_matrix_columns (h : Inserts ins txt) (D1 D2 : Nat) (out : Text) (a : List T) (ha : a.length = D1 * D2) :
    printMatrix ins D1 D2 ⟨out, 0⟩ a = .ok ⟨out ++ columnText txt D1 D2 (entry D1 D2 a ha), 0⟩ := by
  rw [printMatrix, printColumns_eq ins txt h D1 D2 a ha out 0 D2 (by omega)]
  simp [columnText]

/-- **C87** fails for rows: a matrix is not printed row by row.  The matrix with rows `1 2 3` and
`4 5 6` prints as three lines `1 4`, `2 5`, `3 6`. -/
theorem C87_matrix_rows_fails :
    printMatrix insNat 2 3 ⟨[], 0⟩ [1, 2, 3, 4, 5, 6] = .ok ⟨"[ 1 4 ]\n[ 2 5 ]\n[ 3 6 ]\n".toList, 0⟩ ∧
    rowText (Nat.toDigits 10) 2 3 (entry 2 3 [1, 2, 3, 4, 5, 6] rfl) = "[ 1 2 3 ]\n[ 4 5 6 ]\n".toList := by
  constructor
  · decide
  · decide

theorem words_lines {ι : Type} (l : List ι) (f : ι → List Text) :
    words (l.flatMap fun j => bracketed '[' ']' (f j) ++ ['\n'])
      = l.flatMap fun j => ['['] :: ((f j).flatMap words ++ [[']']]) := by
  induction l with
  | nil => rfl
  | cons j l ih =>
    simp only [List.flatMap_cons, List.append_assoc, List.singleton_append]
    rw [words_append _ _ '\n' rfl, words_bracketed _ _ rfl rfl, ih]

theorem count_lines {ι : Type} (l : List ι) (f : ι → List Text) (hf : ∀ j, ∀ t ∈ f j, '\n' ∉ t) :
    (l.flatMap fun j => bracketed '[' ']' (f j) ++ ['\n']).count '\n' = l.length := by
  induction l with
  | nil => rfl
  | cons j l ih =>
    have h0 : (bracketed '[' ']' (f j)).count '\n' = 0 := by
      rw [List.count_eq_zero]
      intro hm
      simp only [bracketed, List.cons_append, List.mem_cons, List.mem_append, List.mem_flatMap,
        List.not_mem_nil, or_false] at hm
      rcases hm with hm | ⟨t, ht, hm | hm⟩ | hm | hm
      · exact absurd hm (by decide)
      · exact absurd hm (by decide)
      · exact hf j t ht hm
      · exact absurd hm (by decide)
      · exact absurd hm (by decide)
    rw [List.flatMap_cons, List.count_append, List.count_append, h0, ih]
    simp [Nat.add_comm]

theorem flatMap_words (l : List Text) (hl : ∀ t ∈ l, Word t) : l.flatMap words = l := by
  induction l with
  | nil => rfl
  | cons t l ih =>
    rw [List.flatMap_cons, words_word t (hl t (by simp)), ih fun u hu => hl u (by simp [hu])]
    rfl

/-- lines of `n` words each that read alike hold the same words -/
theorem lines_inj {m n : Nat} (f g : Fin m → Fin n → Text) (hf : ∀ j i, Word (f j i)) (hg : ∀ j i, Word (g j i))
    (e : words ((List.finRange m).flatMap fun j => bracketed '[' ']' ((List.finRange n).map (f j)) ++ ['\n'])
      = words ((List.finRange m).flatMap fun j => bracketed '[' ']' ((List.finRange n).map (g j)) ++ ['\n'])) : f = g := by
  rw [words_lines, words_lines, List.flatMap_def, List.flatMap_def] at e
  have hF : ∀ j, ((List.finRange n).map (f j)).flatMap words = (List.finRange n).map (f j) := fun j =>
    flatMap_words _ (by simpa using hf j)
  have hG : ∀ j, ((List.finRange n).map (g j)).flatMap words = (List.finRange n).map (g j) := fun j =>
    flatMap_words _ (by simpa using hg j)
  simp only [hF, hG] at e
  have e3 := flatten_inj (n + 2) (by omega) _ _ (by simp) (by simp) e
  funext j i
  have e4 := List.map_inj_left.1 e3 j (List.mem_finRange j)
  have e5 := List.append_cancel_right (List.cons.inj e4).2
  exact List.map_inj_left.1 e5 i (List.mem_finRange i)

/-- **C87** For elements that read as one word each, the printed form determines a matrix of
known shape. -/
theorem C87_matrix_injective (h : Inserts ins txt) (hw : ∀ x, Word (txt x)) (hi : ∀ x y, txt x = txt y → x = y)
    (D1 D2 : Nat) (a b : List T) (ha : a.length = D1 * D2) (hb : b.length = D1 * D2)
    (e : printMatrix ins D1 D2 ⟨[], 0⟩ a = printMatrix ins D1 D2 ⟨[], 0⟩ b) : a = b := by
  rw [C87_matrix_columns ins txt h D1 D2 _ a ha, C87_matrix_columns ins txt h D1 D2 _ b hb] at e
  have e1 : columnText txt D1 D2 (entry D1 D2 a ha) = columnText txt D1 D2 (entry D1 D2 b hb) := by
    simpa using e
  have e2 := lines_inj (fun j i => txt (entry D1 D2 a ha i j)) (fun j i => txt (entry D1 D2 b hb i j))
    (fun _ _ => hw _) (fun _ _ => hw _) (congrArg words e1)
  apply List.ext_getElem (by rw [ha, hb])
  intro n hn hn'
  have hlt : n < D1 * D2 := ha ▸ hn
  have hD : 0 < D2 := by
    rcases Nat.eq_zero_or_pos D2 with h0 | h0
    · subst h0; simp at hlt
    · exact h0
  have e3 := hi _ _ (congrFun (congrFun e2 ⟨n % D2, Nat.mod_lt _ hD⟩) ⟨n / D2, Nat.div_lt_of_lt_mul (by rwa [Nat.mul_comm])⟩)
  simp only [entry] at e3
  have hn2 : n / D2 * D2 + n % D2 = n := Nat.div_add_mod' n D2
  simpa only [hn2] using e3

/-- **C87** The printed text is the text by rows exactly for symmetric square matrices. -/
theorem C87_matrix_rows_iff (h : Inserts ins txt) (hw : ∀ x, Word (txt x)) (hi : ∀ x y, txt x = txt y → x = y)
    (D1 D2 : Nat) (a : List T) (ha : a.length = D1 * D2) :
    printMatrix ins D1 D2 ⟨[], 0⟩ a = .ok ⟨rowText txt D1 D2 (entry D1 D2 a ha), 0⟩ ↔
      D1 = D2 ∧ ∀ (i j : Nat) (h1 : i < D1) (h2 : j < D2) (h3 : j < D1) (h4 : i < D2),
        entry D1 D2 a ha ⟨i, h1⟩ ⟨j, h2⟩ = entry D1 D2 a ha ⟨j, h3⟩ ⟨i, h4⟩ := by
  have hn : ∀ x, '\n' ∉ txt x := fun x hx => by
    have := (hw x).2 _ hx
    exact absurd this (by decide)
  rw [C87_matrix_columns ins txt h D1 D2 _ a ha]
  have hred : (Outcome.ok (Stream.mk ([] ++ columnText txt D1 D2 (entry D1 D2 a ha)) 0)
      = .ok ⟨rowText txt D1 D2 (entry D1 D2 a ha), 0⟩) ↔
      columnText txt D1 D2 (entry D1 D2 a ha) = rowText txt D1 D2 (entry D1 D2 a ha) := by simp
  rw [hred]
  constructor
  · intro e
    have hc : D2 = D1 := by
      have := congrArg (List.count '\n') e
      rw [columnText, rowText, count_lines _ _ (by simpa using fun j i => hn _),
        count_lines _ _ (by simpa using fun j i => hn _)] at this
      simpa using this
    subst hc
    refine ⟨rfl, fun i j h1 h2 h3 h4 => ?_⟩
    have e2 := lines_inj (fun j i => txt (entry D2 D2 a ha i j)) (fun i j => txt (entry D2 D2 a ha i j))
      (fun _ _ => hw _) (fun _ _ => hw _) (congrArg words e)
    exact hi _ _ (congrFun (congrFun e2 ⟨j, h2⟩) ⟨i, h1⟩)
  · rintro ⟨hD, hs⟩
    subst hD
    have : ∀ i j, entry D1 D1 a ha i j = entry D1 D1 a ha j i := fun i j => hs i j i.2 j.2 j.2 i.2
    rw [columnText, rowText]
    simp only [this]

end

example : printMatrix insBool 2 2 ⟨[], 0⟩ [true, false, false, true]
    = .ok ⟨rowText boolText 2 2 (entry 2 2 [true, false, false, true] rfl), 0⟩ := by decide

/-! ## the Lua stack -/

section
open LuaStack
variable {F : Type}

namespace Spec

/-- a number in a field of three characters -/
def field3 (n : Nat) : Text := List.replicate (3 - (Nat.toDigits 10 n).length) ' ' ++ Nat.toDigits 10 n

/-- what the dump says of a value -/
def describe (L : Lua F) (num : F → Text) : Val F → Text
  | .str b => "string >> ".toList ++ (b.takeWhile (· != 0)).map fun c => Char.ofNat c.toNat
  | .bool true => "bool   >> true".toList
  | .bool false => "bool   >> false".toList
  | .int n => "number >> ".toList ++ num (L.intToFloat n)
  | .num x => "number >> ".toList ++ num x
  | .nil => "other  >> nil".toList
  | .table _ => "other  >> table".toList
  | .func _ => "other  >> function".toList
  | .other => "other  >> userdata".toList

/-- one line of the dump -/
def line (L : Lua F) (num : F → Text) (n : Nat) (v : Val F) : Text :=
  field3 n ++ " : ".toList ++ describe L num v ++ ['\n']

/-- the lines of the values, numbered from `n` -/
def lines (L : Lua F) (num : F → Text) : Nat → List (Val F) → Text
  | _, [] => []
  | n, v :: vs => line L num n v ++ lines L num (n + 1) vs

/-- the first line -/
def header : Text := "Row : Type   >> Value\n".toList

end Spec

variable (L : Lua F) (num : F → Text)

theorem getRow_of_peek (i : Int) (s : St F) (v : Val F) (h : peek i s = .ok v s) :
    getRow L num i s = .ok (describe L num v) s := by
  rw [getRow, bind_of_ok h]
  cases v with
  | bool b => cases b <;> rfl
  | _ => rfl

theorem dumpRows_eq (s : St F) (out : Text) (i k : Nat) (hi : 0 < i) (hk : i + k = s.stack.length + 1) :
    dumpRows L num ⟨out, 0⟩ i k s
      = .ok ⟨out ++ lines L num i (s.stack.reverse.drop (i - 1)), 0⟩ s := by
  induction k generalizing i out with
  | zero =>
    have : s.stack.reverse.drop (i - 1) = [] := List.drop_eq_nil_of_le (by simp; omega)
    rw [this]
    simp [dumpRows, lines, pure]
  | succ k ih =>
    have hlt : i - 1 < s.stack.reverse.length := by simp; omega
    have hd : depthOf s.stack.length (i : Int) = some (s.stack.length - i) := by
      unfold depthOf
      rw [if_neg (by omega), if_pos ⟨by omega, by simp; omega⟩]
      simp
    have hg : s.stack[s.stack.length - i]? = some (s.stack.reverse[i - 1]) := by
      rw [List.getElem_reverse, List.getElem?_eq_getElem (by omega)]
      congr 2
      omega
    have hp : peek (i : Int) s = .ok (s.stack.reverse[i - 1]) s := by
      simp only [peek, hd, hg]
    have hr := getRow_of_peek L num i s _ hp
    rw [dumpRows, bind_of_ok hr]
    simp only [Stream.setw, Stream.put, Stream.endl, Nat.zero_sub, List.replicate_zero, List.nil_append]
    rw [ih _ _ (by omega) (by omega), List.drop_eq_getElem_cons hlt]
    have : i - 1 + 1 = i + 1 - 1 := by omega
    rw [this]
    simp [lines, line, field3]

theorem header_eq : header = "Row : Type   >> Value".toList ++ ['\n'] := by decide
theorem empty_eq : "(stack empty)\n".toList = "(stack empty)".toList ++ ['\n'] := by decide

/-- **C88** Dumping a Lua stack prints a header and then, from the bottom of the stack to the top
and numbered from 1, one entry for each value with its type and value; an empty stack is reported
as empty.  The dump never fails and leaves the Lua state as it was. -/
theorem C88_dump (out : Text) (s : St F) :
    dumpStack L num ⟨out, 0⟩ s = .ok ⟨out ++ (if s.stack = [] then "(stack empty)\n".toList
      else header ++ lines L num 1 s.stack.reverse), 0⟩ s := by
  rw [dumpStack, bind_of_ok (show gettop s = .ok s.stack.length s from rfl)]
  by_cases h : s.stack = []
  · rw [if_neg (by simp [h]), if_pos h]
    rw [empty_eq, put_zero]
    generalize "(stack empty)".toList = t
    simp [Stream.endl, pure]
  · rw [if_pos (by simpa using h), if_neg h, header_eq]
    generalize "Row : Type   >> Value".toList = t
    simp only [Stream.put, Stream.endl, Nat.zero_sub, List.replicate_zero, List.nil_append]
    rw [dumpRows_eq L num s _ 1 _ (by omega) (by omega)]
    simp

example : (match dumpStack exLua (fun n => Nat.toDigits 10 n.toNat) ⟨[], 0⟩
      { exSt with stack := [.bool true, .table 0, .str [72, 105, 0, 33], .int 12] } with
    | .ok os _ => os.out
    | _ => []) = "Row : Type   >> Value\n  1 : number >> 12\n  2 : string >> Hi\n  3 : other  >> table\n  4 : bool   >> true\n".toList := by
  decide

/-- **C88** Reporting the last row prints the number of values on the stack and the value on top,
and leaves the Lua state as it was, whenever the stack is not empty. -/
theorem C88_last_row_partial (out : Text) (s : St F) (v : Val F) (vs : List (Val F)) (h : s.stack = v :: vs) :
    printLastRow L num ⟨out, 0⟩ s = .ok ⟨out ++ (header ++ line L num s.stack.length v), 0⟩ s := by
  have hp : peek (-1) s = .ok v s := by
    simp [peek, depthOf, h]
  have hr := getRow_of_peek L num (-1) s v hp
  rw [printLastRow, bind_of_ok (show gettop s = .ok s.stack.length s from rfl), bind_of_ok hr]
  rw [header_eq, line]
  generalize "Row : Type   >> Value".toList = t
  generalize " : ".toList = u
  simp [Stream.setw, Stream.put, Stream.endl, field3, pure]

example : ({ exSt with stack := [.bool true, .table 0] } : St Int).stack = .bool true :: [.table 0] := rfl

/-- **C88** fails for an empty stack: the last row reported is then whatever the slot below the
stack holds, numbered 0. -/
theorem C88_last_row_fails (out : Text) (s : St F) (h : s.stack = []) :
    printLastRow L num ⟨out, 0⟩ s = .ok ⟨out ++ (header ++ line L num 0 s.base), 0⟩ s := by
  have hp : peek (-1) s = .ok s.base s := by
    simp [peek, depthOf, h]
  have hr := getRow_of_peek L num (-1) s _ hp
  rw [printLastRow, bind_of_ok (show gettop s = .ok s.stack.length s from rfl), bind_of_ok hr]
  rw [header_eq, line, h]
  generalize "Row : Type   >> Value".toList = t
  generalize " : ".toList = u
  simp [Stream.setw, Stream.put, Stream.endl, field3, pure]

example : exSt.stack = [] := rfl

end

end Verif.Printing
