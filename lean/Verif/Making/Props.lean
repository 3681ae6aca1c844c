import Verif.Making.Model

/-! # C102: an array is what it was made from -/

namespace Verif.Making

variable {Ty V : Type} [DecidableEq Ty]

/-! ## which candidate is taken -/

theorem best_num (E : Types Ty V) (cls : Cls) (T : Ty) (n : Nat) (t : Ty) (v : V) (c : Bool) :
    best E cls T n (ctors cls) [.num t v c] =
      if cls = .multi then some .any else if E.implicit t T then some .value else none := by
  by_cases ht : t = T
  · subst ht
    cases cls <;> by_cases hn : n = 1 <;> simp [best, ctors, rank, better, isTemplate, special, exactly, E.implicit_self, hn, eq_comm (a := 1)]
  · cases cls <;> by_cases hi : E.implicit t T <;>
      simp [best, ctors, rank, better, isTemplate, special, exactly, ht, hi]

theorem best_arr (E : Types Ty V) (cls : Cls) (T : Ty) (n : Nat) (t : Ty) (xs : List V) :
    best E cls T n (ctors cls) [.arr t xs] =
      if t = T then some .copy else if cls = .dim then none else some .conv := by
  by_cases ht : t = T
  · cases cls <;> simp [best, ctors, rank, better, isTemplate, special, exactly, ht]
  · cases cls <;> simp [best, ctors, rank, better, isTemplate, special, exactly, ht]

theorem best_many (E : Types Ty V) (cls : Cls) (T : Ty) (n : Nat) (a b : Arg Ty V) (l : List (Arg Ty V)) :
    best E cls T n (ctors cls) (a :: b :: l) =
      if cls ≠ .multi ∧ l.length + 2 = n ∧ (cls = .dim → (a :: b :: l).all (exactly T) = true) then some .pack else none := by
  by_cases hn : l.length + 2 = n
  · subst hn
    cases cls with
    | math => simp [best, ctors, rank, better]
    | multi => simp [best, ctors, rank, better]
    | dim =>
      by_cases he : (a :: b :: l).all (exactly T) = true
      · rw [if_pos ⟨by simp, rfl, fun _ => he⟩]
        have hr : rank E .dim T (l.length + 2) .pack (a :: b :: l) = some 0 := by
          unfold rank; dsimp only; rw [if_pos ⟨rfl, he⟩]
        simp [best, ctors, better, hr, rank.eq_def E .dim T (l.length + 2) .copy, rank.eq_def E .dim T (l.length + 2) .value]
      · rw [if_neg (fun h => he (h.2.2 rfl))]
        have hr : rank E .dim T (l.length + 2) .pack (a :: b :: l) = none := by
          unfold rank; dsimp only; rw [if_neg (fun h => he h.2)]
        simp [best, ctors, better, hr, rank.eq_def E .dim T (l.length + 2) .copy, rank.eq_def E .dim T (l.length + 2) .value]
  · rw [if_neg (fun h => hn h.2.1)]
    cases cls <;> simp [best, ctors, rank, better, hn]

theorem best_assign_num (E : Types Ty V) (cls : Cls) (T : Ty) (n : Nat) (t : Ty) (v : V) (c : Bool) :
    best E cls T n (assigns cls) [.num t v c] =
      if cls = .dim then (if E.implicit t T then some .value else none) else some .any := by
  by_cases ht : t = T
  · subst ht
    cases cls <;> simp [best, assigns, rank, better, isTemplate, special, E.implicit_self]
  · cases cls <;> by_cases hi : E.implicit t T <;>
      simp [best, assigns, rank, better, isTemplate, special, exactly, ht, hi]

theorem best_assign_arr (E : Types Ty V) (cls : Cls) (T : Ty) (n : Nat) (t : Ty) (xs : List V) :
    best E cls T n (assigns cls) [.arr t xs] =
      if t = T then some .copy else if cls = .dim then none else some .conv := by
  by_cases ht : t = T
  · cases cls <;> simp [best, assigns, rank, better, isTemplate, special, exactly, ht]
  · cases cls <;> simp [best, assigns, rank, better, isTemplate, special, exactly, ht]

/-! ## what is made -/

/-- what an array of `n` elements of type `T` made from the arguments is: zeros from nothing, one
number everywhere, another array element by element, or one number for each element -/
def meaning (E : Types Ty V) (T : Ty) (n : Nat) : List (Arg Ty V) → Option (List V)
  | [] => some (List.replicate n (E.zero T))
  | [.num t v _] => (E.cast t T v).map (List.replicate n)
  | [.arr t xs] => xs.mapM (E.cast t T)
  | args => if args.length = n then args.mapM (fun a => match a with
    | .num t v _ => E.cast t T v
    | .arr _ _ => none) else none

/-- the ways to write it -/
inductive Form
  /-- `A a(x, ...)`, `A a = x` -/
  | paren
  /-- `A a{x, ...}`, `A a = {x, ...}` -/
  | brace
  /-- `a = x` -/
  | assign
  /-- `a = {x, ...}` -/
  | assignBrace

/-- written so; parentheses need an argument and `a = x` takes one -/
def make (E : Types Ty V) (cls : Cls) (checks : Bool) (T : Ty) (n : Nat) : Form → List (Arg Ty V) → Made V
  | .paren, args => paren E cls T n args
  | .brace, args => brace E cls checks T n args
  | .assign, [x] => assign E cls T n x
  | .assign, _ => .illFormed
  | .assignBrace, args => assignBrace E cls checks T n args

/-- array arguments have `n` elements -/
def Sized (n : Nat) : Arg Ty V → Prop
  | .num _ _ _ => True
  | .arr _ xs => xs.length = n

theorem join_ok {x y : Made V} {zs : List (Option V)} (h : join x y = .ok zs) :
    ∃ xs ys, x = .ok xs ∧ y = .ok ys ∧ zs = xs ++ ys := by
  cases x <;> cases y <;> simp only [join, reduceCtorEq, Made.ok.injEq] at h
  exact ⟨_, _, rfl, rfl, h.symm⟩

omit [DecidableEq Ty] in
theorem collect_ok {f : Arg Ty V → Made V} {g : Arg Ty V → Option V}
    (hfg : ∀ a ys, f a = .ok ys → ∃ w, g a = some w ∧ ys = [some w]) :
    ∀ (args : List (Arg Ty V)) (xs : List (Option V)), collect (args.map f) = .ok xs →
      ∃ ws, args.mapM g = some ws ∧ xs = ws.map some ∧ ws.length = args.length := by
  intro args
  induction args with
  | nil => intro xs h; cases h; exact ⟨[], rfl, rfl, rfl⟩
  | cons a args ih =>
    intro xs h
    rw [List.map_cons, collect] at h
    obtain ⟨ys, zs, hf, hc, rfl⟩ := join_ok h
    obtain ⟨w, hw, rfl⟩ := hfg a ys hf
    obtain ⟨ws, h1, rfl, h3⟩ := ih zs hc
    exact ⟨w :: ws, by rw [List.mapM_cons, hw, h1]; rfl, rfl, by simp [h3]⟩

/-- the value of a number argument after conversion -/
def valueOf (E : Types Ty V) (T : Ty) : Arg Ty V → Option V
  | .num t v _ => E.cast t T v
  | .arr _ _ => none

omit [DecidableEq Ty] in
theorem convert_ok {E : Types Ty V} {T : Ty} (a : Arg Ty V) (ys : List (Option V)) (h : convert E T a = .ok ys) :
    ∃ w, valueOf E T a = some w ∧ ys = [some w] := by
  cases a with
  | arr t xs => cases h
  | num t v c =>
    simp only [convert] at h
    split at h
    · cases hc : E.cast t T v with
      | none => rw [hc] at h; cases h
      | some w => rw [hc] at h; cases h; exact ⟨w, hc, rfl⟩
    · cases h

omit [DecidableEq Ty] in
theorem castTo_ok {E : Types Ty V} {T : Ty} (a : Arg Ty V) (ys : List (Option V)) (h : castTo E T a = .ok ys) :
    ∃ w, valueOf E T a = some w ∧ ys = [some w] := by
  cases a with
  | arr t xs => cases h
  | num t v c =>
    simp only [castTo] at h
    split at h
    · cases hc : E.cast t T v with
      | none => rw [hc] at h; cases h
      | some w => rw [hc] at h; cases h; exact ⟨w, hc, rfl⟩
    · cases h

omit [DecidableEq Ty] in
theorem collect_one {E : Types Ty V} {T : Ty} {a : Arg Ty V} {ys : List (Option V)}
    (h : collect ([a].map (convert E T)) = .ok ys) : ∃ t v c w, a = .num t v c ∧ E.cast t T v = some w ∧ ys = [some w] := by
  rw [List.map_cons, List.map_nil, collect, collect] at h
  obtain ⟨xs, zs, hf, hc, rfl⟩ := join_ok h
  cases hc
  obtain ⟨w, hw, rfl⟩ := convert_ok a xs hf
  cases a with
  | arr t ys => cases hw
  | num t v c => exact ⟨t, v, c, w, rfl, hw, rfl⟩

/-- the arguments mean these elements -/
def Means (E : Types Ty V) (T : Ty) (n : Nat) (args : List (Arg Ty V)) (xs : List (Option V)) : Prop :=
  ∃ ws, meaning E T n args = some ws ∧ xs = ws.map some ∧ ws.length = n

omit [DecidableEq Ty] in
theorem means_fill {E : Types Ty V} {T : Ty} {n : Nat} {a : Arg Ty V} {xs : List (Option V)}
    (h : fillWith n (convert E T a) = .ok xs) : Means E T n [a] xs := by
  cases a with
  | arr t ys => cases h
  | num t v c =>
    cases hc : convert E T (.num t v c) with
    | ok ys =>
      obtain ⟨w, hw, rfl⟩ := convert_ok _ _ hc
      rw [hc] at h
      cases h
      refine ⟨List.replicate n w, ?_, by rw [List.map_replicate], by simp⟩
      have : E.cast t T v = some w := hw
      simp only [meaning, this, Option.map_some]
    | _ => rw [hc] at h; cases h

omit [DecidableEq Ty] in
theorem means_self {E : Types Ty V} {T : Ty} {n : Nat} {ys : List V} (hn : ys.length = n) :
    Means E T n [.arr T ys] (ys.map some) := by
  refine ⟨ys, ?_, rfl, hn⟩
  simp only [meaning]
  clear hn
  induction ys with
  | nil => rfl
  | cons y ys ih => rw [List.mapM_cons, E.cast_self, ih]; rfl

omit [DecidableEq Ty] in
theorem means_conv {E : Types Ty V} {T t : Ty} {n : Nat} {ys : List V} (hn : ys.length = n) {xs : List (Option V)}
    (h : collect (ys.map fun x => convert E T (.num t x false)) = .ok xs) : Means E T n [.arr t ys] xs := by
  have e : ys.map (fun x => convert E T (.num t x false)) = (ys.map fun x => Arg.num t x false).map (convert E T) := by
    rw [List.map_map]; rfl
  rw [e] at h
  obtain ⟨ws, h1, h2, h3⟩ := collect_ok convert_ok _ _ h
  refine ⟨ws, ?_, h2, by rw [h3, List.length_map, hn]⟩
  simp only [meaning]
  rw [← h1, List.mapM_map]
  rfl

omit [DecidableEq Ty] in
theorem means_many {E : Types Ty V} {T : Ty} {n : Nat} {a b : Arg Ty V} {l : List (Arg Ty V)} (hn : l.length + 2 = n)
    {ws : List V} (h : (a :: b :: l).mapM (valueOf E T) = some ws) (hl : ws.length = (a :: b :: l).length) :
    Means E T n (a :: b :: l) (ws.map some) := by
  refine ⟨ws, ?_, rfl, by rw [hl]; simpa using hn⟩
  have : meaning E T n (a :: b :: l) = if (a :: b :: l).length = n then (a :: b :: l).mapM (valueOf E T) else none := by
    cases a <;> rfl
  rw [this, if_pos (by simpa using hn), h]

theorem paren_means {E : Types Ty V} {cls : Cls} {T : Ty} {n : Nat} {args : List (Arg Ty V)} (hs : ∀ a ∈ args, Sized n a)
    {xs : List (Option V)} (h : paren E cls T n args = .ok xs) : Means E T n args xs := by
  unfold paren at h
  match args with
  | [] =>
    by_cases hn : n = 0
    · subst hn
      cases cls <;> simp [best, ctors, rank, better, body, collect] at h
      exact ⟨[], by simp [meaning], by simp [h], rfl⟩
    · have hn' : ¬ 0 = n := fun e => hn e.symm
      cases cls <;> simp [best, ctors, rank, better, hn'] at h
  | [.num t v c] =>
    rw [best_num] at h
    cases cls with
    | multi => exact means_fill h
    | math =>
      by_cases hi : E.implicit t T
      · simp only [reduceCtorEq, if_false, hi, if_true] at h; exact means_fill h
      · simp [hi] at h
    | dim =>
      by_cases hi : E.implicit t T
      · simp only [reduceCtorEq, if_false, hi, if_true] at h; exact means_fill h
      · simp [hi] at h
  | [.arr t ys] =>
    have hn : ys.length = n := hs (.arr t ys) (by simp)
    rw [best_arr] at h
    by_cases ht : t = T
    · subst ht
      rw [if_pos rfl] at h
      cases h
      exact means_self hn
    · rw [if_neg ht] at h
      cases cls with
      | dim => simp at h
      | math => simp [body, ht] at h
      | multi =>
        simp only [reduceCtorEq, if_false, body, ht, true_and, if_true] at h
        exact means_conv hn h
  | a :: b :: l =>
    rw [best_many] at h
    split at h
    · rename_i c hc
      split at hc
      · rename_i hp
        cases hc
        obtain ⟨ws, h1, rfl, h3⟩ := collect_ok castTo_ok _ _ (show collect ((a :: b :: l).map (castTo E T)) = .ok xs from h)
        exact means_many hp.2.1 h1 h3
      · cases hc
    · cases h

theorem brace_means {E : Types Ty V} {cls : Cls} {T : Ty} {n : Nat} {args : List (Arg Ty V)} (hs : ∀ a ∈ args, Sized n a)
    {xs : List (Option V)} (h : brace E cls true T n args = .ok xs) : Means E T n args xs := by
  match args with
  | [] =>
    cases h
    exact ⟨_, rfl, by rw [List.map_replicate], by simp⟩
  | a :: l =>
    rw [brace] at h
    · by_cases hp : hasList cls = true ∧ (a :: l).all (takes E T) = true
      · rw [if_pos hp, listBody] at h
        split at h
        · cases h
        · cases hc : collect ((a :: l).map (convert E T)) with
          | ok ys =>
            rw [hc] at h
            dsimp only at h
            by_cases hm : cls = .multi ∧ (a :: l).length = 1
            · rw [if_pos hm] at h
              have : l = [] := List.length_eq_zero_iff.mp (by simpa using hm.2)
              subst this
              obtain ⟨t, v, c, w, rfl, hw, rfl⟩ := collect_one hc
              cases h
              exact ⟨List.replicate n w, by simp only [meaning, hw, Option.map_some], by rw [List.map_replicate], by simp⟩
            · rw [if_neg hm] at h
              by_cases hl : (a :: l).length = n
              · obtain ⟨ws, h1, rfl, h3⟩ := collect_ok convert_ok _ _ hc
                simp only [hl, ne_eq, not_true_eq_false, and_false, if_false, copyInto, List.length_map, h3, Nat.le_refl,
                  if_true, Nat.sub_self, List.replicate_zero, List.append_nil, Made.ok.injEq] at h
                subst h
                match l, hl with
                | b :: l, hl => exact means_many (by simpa using hl) h1 h3
                | [], hl =>
                  have hn : n = 1 := by simpa using hl.symm
                  subst hn
                  obtain ⟨t, v, c, w, rfl, hw, hws⟩ := collect_one hc
                  refine ⟨[w], by simp only [meaning, hw, Option.map_some, List.replicate_one], hws, rfl⟩
              · rw [if_pos ⟨rfl, hl⟩] at h; cases h
          | _ => rw [hc] at h; cases h
      · rw [if_neg hp] at h
        refine paren_means (cls := cls) hs ?_
        unfold paren
        split at h
        · rename_i e; rw [e]; dsimp only
          split at h
          · cases h
          · exact h
        · rename_i c _ e; rw [e]; exact h
        · cases h
    · exact fun e => by cases e

theorem assign_means {E : Types Ty V} {cls : Cls} {T : Ty} {n : Nat} {a : Arg Ty V} (hs : Sized n a)
    {xs : List (Option V)} (h : assign E cls T n a = .ok xs) : Means E T n [a] xs := by
  unfold assign at h
  match a with
  | .num t v c =>
    rw [best_assign_num] at h
    cases cls with
    | multi => exact means_fill h
    | math => exact means_fill h
    | dim =>
      by_cases hi : E.implicit t T
      · simp only [hi, if_true] at h; exact means_fill h
      · simp [hi] at h
  | .arr t ys =>
    rw [best_assign_arr] at h
    by_cases ht : t = T
    · subst ht
      rw [if_pos rfl] at h
      cases h
      exact means_self hs
    · rw [if_neg ht] at h
      cases cls <;> simp [body, ht] at h

theorem throughCopy_ok {m : Made V} {xs : List (Option V)} (h : throughCopy m = .ok xs) : m = .ok xs := by
  cases m with
  | ok ys =>
    simp only [throughCopy] at h
    split at h
    · exact h
    · cases h
  | _ => cases h

/-- **C102** Whatever way an array is made or assigned (the four ways to write it, the three
classes), with assertions on: if it compiles and comes to an end, every element is determined and is
the one meant. -/
theorem C102_means (E : Types Ty V) (cls : Cls) (T : Ty) (n : Nat) (f : Form) (args : List (Arg Ty V))
    (hs : ∀ a ∈ args, Sized n a) {xs : List (Option V)} (h : make E cls true T n f args = .ok xs) :
    ∃ ws, meaning E T n args = some ws ∧ xs = ws.map some ∧ ws.length = n := by
  cases f with
  | paren => exact paren_means hs h
  | brace => exact brace_means hs h
  | assign =>
    match args with
    | [x] => exact assign_means (hs x (by simp)) h
    | [] => cases h
    | _ :: _ :: _ => cases h
  | assignBrace =>
    simp only [make, assignBrace] at h
    split at h
    · cases h
      exact ⟨_, rfl, by rw [List.map_replicate], by simp⟩
    · split at h
      · split at h
        · cases h
        · exact means_fill h
      · exact brace_means hs (throughCopy_ok h)
    · exact brace_means hs (throughCopy_ok h)

/-- integers (`false`) and numbers with one decimal, counted in tenths (`true`); out of range for an
integer from 1000 -/
def demo : Types Bool Int where
  implicit _ _ := true
  static _ _ := true
  cast t u v := match t, u with
    | false, true => some (10 * v)
    | true, false => if v < 10000 then some (v / 10) else none
    | _, _ => some v
  narrows t u v := match t, u with
    | true, false => true
    | false, true => v.isNone
    | _, _ => false
  zero _ := 0
  implicit_self _ := rfl
  static_of _ _ _ := rfl
  cast_self t v := by cases t <;> rfl
  narrows_self t v := by cases t <;> rfl

/-- three numbers in braces -/
example : ∃ ws, meaning demo true 3 [.num false 1 true, .num true 25 false, .num false 3 true] = some ws ∧
    [some 10, some 25, some 30] = ws.map some ∧ ws.length = 3 :=
  C102_means demo .multi true 3 .brace [.num false 1 true, .num true 25 false, .num false 3 true]
    (by simp [Sized]) (by decide)

/-- **C102** So all ways to write it agree: where two of them both succeed on the same arguments,
they give the same array, in whichever classes. -/
theorem C102_agree (E : Types Ty V) (cls cls' : Cls) (T : Ty) (n : Nat) (f g : Form) (args : List (Arg Ty V))
    (hs : ∀ a ∈ args, Sized n a) {xs ys : List (Option V)} (hx : make E cls true T n f args = .ok xs)
    (hy : make E cls' true T n g args = .ok ys) : xs = ys := by
  obtain ⟨ws, h1, rfl, -⟩ := C102_means E cls T n f args hs hx
  obtain ⟨ws', h2, rfl, -⟩ := C102_means E cls' T n g args hs hy
  rw [h1] at h2
  cases h2
  rfl

example : (show Made Int from make demo .dim true false 2 .paren [.num false 1 true, .num false 2 true]) = .ok [some 1, some 2] ∧
    make demo .math true false 2 .brace [.num false 1 true, .num false 2 true] = .ok [some 1, some 2] := by decide

/-! ## when it succeeds -/

omit [DecidableEq Ty] in
theorem fill_num {E : Types Ty V} {T t : Ty} {n : Nat} {v w : V} {c : Bool} (hi : E.implicit t T = true)
    (hw : E.cast t T v = some w) : fillWith n (convert E T (.num t v c)) = .ok (List.replicate n (some w)) := by
  simp only [convert, hi, if_true, hw, fillWith]

omit [DecidableEq Ty] in
theorem all_replicate (n : Nat) (w : V) : (List.replicate n (some w)).all Option.isSome = true := by
  rw [List.all_eq_true]
  intro x hx
  rw [List.eq_of_mem_replicate hx]
  rfl

omit [DecidableEq Ty] in
theorem all_map (ws : List V) : (ws.map some).all Option.isSome = true := by
  rw [List.all_eq_true]
  intro x hx
  obtain ⟨w, -, rfl⟩ := List.mem_map.mp hx
  rfl

/-- **C102** One number that converts to the element type: in parentheses and by assignment every
class takes it and sets every element; in braces too where the conversion is not narrowing, except
that `dimensioned_array__` is made so only if it has one element. -/
theorem C102_value (E : Types Ty V) (cls : Cls) (checks : Bool) (T : Ty) (n : Nat) {t : Ty} {v w : V} (c : Bool)
    (hi : E.implicit t T = true) (hw : E.cast t T v = some w) :
    make E cls checks T n .paren [.num t v c] = .ok (List.replicate n (some w)) ∧
    make E cls checks T n .assign [.num t v c] = .ok (List.replicate n (some w)) ∧
    (E.narrows t T (if c then some v else none) = false →
      make E cls checks T n .assignBrace [.num t v c] = .ok (List.replicate n (some w)) ∧
      (cls ≠ .dim ∨ n = 1 → make E cls checks T n .brace [.num t v c] = .ok (List.replicate n (some w)))) := by
  have hf := fill_num (n := n) (c := c) hi hw
  have hp : paren E cls T n [.num t v c] = .ok (List.replicate n (some w)) := by
    unfold paren
    rw [best_num]
    cases cls <;> simp only [reduceCtorEq, if_false, if_true, hi, body, hf]
  have ha : assign E cls T n (.num t v c) = .ok (List.replicate n (some w)) := by
    unfold assign
    rw [best_assign_num]
    cases cls <;> simp only [reduceCtorEq, if_false, if_true, hi, body, hf]
  refine ⟨hp, ha, fun hn => ?_⟩
  have hb : cls ≠ .dim ∨ n = 1 → brace E cls checks T n [.num t v c] = .ok (List.replicate n (some w)) := by
    intro hd
    cases cls with
    | math => simp [brace, hasList, best_num, hi, narrow, hn, body, hf]
    | multi => simp [brace, hasList, takes, hi, listBody, narrow, hn, collect, convert, hw, join, fillWith]
    | dim =>
      have hn1 : n = 1 := hd.resolve_left (by simp)
      subst hn1
      simp [brace, hasList, takes, hi, listBody, narrow, hn, collect, convert, hw, join, copyInto]
  refine ⟨?_, hb⟩
  cases cls with
  | dim => simp only [make, assignBrace, hi, if_true, narrow, hn, Bool.false_eq_true, if_false, body, hf]
  | math => simp only [make, assignBrace, hb (.inl (by simp)), throughCopy, all_replicate, if_true]
  | multi => simp only [make, assignBrace, hb (.inl (by simp)), throughCopy, all_replicate, if_true]

example : make demo .dim true true 3 .assignBrace [.num false 7 true] = .ok [some 70, some 70, some 70] :=
  ((C102_value demo .dim true true 3 (t := false) (v := 7) (w := 70) true rfl rfl).2.2 rfl).1

/-- **C102** is false for `dimensioned_array__` made from one value in braces: `{v}` is a list of one
element, and for every other size it fails the assertion; without assertions all elements but the
first are indeterminate.  Assigning `{v}` to it sets every element. -/
theorem C102_single_brace_fails (E : Types Ty V) (T : Ty) (n : Nat) (hn : n ≠ 1) (v : V) (c : Bool) :
    make E .dim true T n .brace [.num T v c] = .assertFail ∧
    (1 < n → make E .dim false T n .brace [.num T v c] = .ok (some v :: List.replicate (n - 1) none)) ∧
    make E .dim true T n .assignBrace [.num T v c] = .ok (List.replicate n (some v)) := by
  have hi := E.implicit_self T
  have hw := E.cast_self T v
  have hr := E.narrows_self T (if c then some v else none)
  refine ⟨?_, fun h1 => ?_, ((C102_value E .dim true T n c hi hw).2.2 hr).1⟩
  · simp [make, brace, hasList, takes, hi, listBody, narrow, hr, collect, convert, hw, join, Ne.symm hn]
  · simp [make, brace, hasList, takes, hi, listBody, narrow, hr, collect, convert, hw, join, copyInto]
    omega

/-- **C102** A copy has the elements of the array copied, in every class and however it is written. -/
theorem C102_copy (E : Types Ty V) (cls : Cls) (checks : Bool) (T : Ty) (f : Form) (ys : List V) :
    make E cls checks T ys.length f [.arr T ys] = .ok (ys.map some) := by
  have hb : brace E cls checks T ys.length [.arr T ys] = .ok (ys.map some) := by
    cases cls <;> simp [brace, hasList, takes, best_arr, body]
  cases f with
  | paren => simp [make, paren, best_arr, body]
  | brace => exact hb
  | assign => simp [make, assign, best_assign_arr, body]
  | assignBrace => cases cls <;> simp only [make, assignBrace, hb, throughCopy, all_map, if_true]

example : make demo .math true false 2 .assign [.arr false [5, 6]] = .ok [some 5, some 6] :=
  C102_copy demo .math true false .assign [5, 6]

omit [DecidableEq Ty] in
theorem collect_of {f : Arg Ty V → Made V} {g : Arg Ty V → Option V} :
    ∀ (args : List (Arg Ty V)) (ws : List V), (∀ a ∈ args, ∀ w, g a = some w → f a = .ok [some w]) → args.mapM g = some ws →
      collect (args.map f) = .ok (ws.map some) := by
  intro args
  induction args with
  | nil => intro ws _ h; cases h; rfl
  | cons a args ih =>
    intro ws hfg h
    rw [List.mapM_cons] at h
    cases ha : g a with
    | none => rw [ha] at h; cases h
    | some w =>
      cases hr : args.mapM g with
      | none => rw [ha, hr] at h; cases h
      | some vs =>
        rw [ha, hr] at h
        cases h
        rw [List.map_cons, collect, hfg a (by simp) w ha, ih vs (fun b hb => hfg b (List.mem_cons_of_mem _ hb)) hr]
        rfl

/-- **C102** An array of another element type: a `multi_array` is made from it, element by element,
in parentheses, in braces and by assigning braces. -/
theorem C102_convert (E : Types Ty V) (checks : Bool) (T t : Ty) (ys ws : List V) (hi : E.implicit t T = true)
    (hw : ys.mapM (E.cast t T) = some ws) :
    make E .multi checks T ys.length .paren [.arr t ys] = .ok (ws.map some) ∧
    make E .multi checks T ys.length .brace [.arr t ys] = .ok (ws.map some) ∧
    make E .multi checks T ys.length .assignBrace [.arr t ys] = .ok (ws.map some) := by
  by_cases ht : t = T
  · subst ht
    have : ws = ys := by
      obtain ⟨vs, h1, h2, -⟩ := means_self (E := E) (T := t) (ys := ys) rfl
      simp only [meaning] at h1
      rw [hw] at h1
      cases h1
      exact (List.map_inj_right (fun _ _ => Option.some.inj)).mp h2.symm
    subst this
    exact ⟨C102_copy E .multi checks t .paren ws, C102_copy E .multi checks t .brace ws, C102_copy E .multi checks t .assignBrace ws⟩
  · have hc : collect (ys.map fun x => convert E T (.num t x false)) = .ok (ws.map some) := by
      have := collect_of (f := convert E T) (g := valueOf E T) (ys.map fun x => Arg.num t x false) ws (by
        intro a ha w hw
        obtain ⟨x, -, rfl⟩ := List.mem_map.mp ha
        have : E.cast t T x = some w := hw
        simp only [convert, hi, if_true, this]) (by rw [List.mapM_map]; exact hw)
      rw [List.map_map] at this
      exact this
    have hb : brace E .multi checks T ys.length [.arr t ys] = .ok (ws.map some) := by
      simp [brace, hasList, takes, best_arr, ht, body, hc]
    refine ⟨?_, hb, ?_⟩
    · simp [make, paren, best_arr, ht, body, hc]
    · simp only [make, assignBrace, hb, throughCopy, all_map, if_true]

example : make demo .multi true true 2 .paren [.arr false [5, 6]] = .ok [some 50, some 60] :=
  (C102_convert demo true true false [5, 6] [50, 60] rfl rfl).1

/-- **C102** is false for the other conversions declared: making or assigning a `math::array` from
one with another element type never compiles, and neither does assigning a `multi_array`, though
assigning the same array in braces does. -/
theorem C102_convert_fails (E : Types Ty V) (checks : Bool) (T t : Ty) (ht : t ≠ T) (n : Nat) (ys : List V) (f : Form) :
    make E .math checks T n f [.arr t ys] = .illFormed ∧ make E .dim checks T n f [.arr t ys] = .illFormed ∧
    make E .multi checks T n .assign [.arr t ys] = .illFormed := by
  have hb1 : brace E .math checks T n [.arr t ys] = .illFormed := by simp [brace, hasList, best_arr, ht, body]
  have hb2 : brace E .dim checks T n [.arr t ys] = .illFormed := by simp [brace, hasList, takes, best_arr, ht]
  refine ⟨?_, ?_, by simp [make, assign, best_assign_arr, ht, body]⟩
  · cases f <;> simp [make, paren, assign, assignBrace, best_arr, best_assign_arr, ht, body, hb1, throughCopy]
  · cases f <;> simp [make, paren, assign, assignBrace, best_arr, best_assign_arr, ht, hb2, throughCopy]

/-! ## one number for each element -/

/-- **C102** One number for each of two or more elements, each converting to the element type: which
ways compile, and then the array has these numbers.  In parentheses `math::array` takes any,
`dimensioned_array__` only numbers of exactly its type, `multi_array` none; in braces the list
classes refuse narrowing. -/
theorem C102_values (E : Types Ty V) (cls : Cls) (checks : Bool) (T : Ty) (args : List (Arg Ty V)) (h2 : 2 ≤ args.length)
    (ht : ∀ a ∈ args, takes E T a = true) {ws : List V} (hw : args.mapM (valueOf E T) = some ws) :
    make E cls checks T args.length .paren args =
      (if cls = .multi ∨ (cls = .dim ∧ args.all (exactly T) = false) then .illFormed else .ok (ws.map some)) ∧
    make E cls checks T args.length .brace args =
      (if cls ≠ .math ∧ args.any (narrow E T) = true then .illFormed else .ok (ws.map some)) ∧
    make E cls checks T args.length .assignBrace args = make E cls checks T args.length .brace args := by
  have hconv : collect (args.map (convert E T)) = .ok (ws.map some) :=
    collect_of args ws (fun a ha w hw => by
      cases a with
      | arr t ys => cases hw
      | num t v c =>
        have h1 : E.implicit t T = true := ht _ ha
        have h2 : E.cast t T v = some w := hw
        simp only [convert, h1, if_true, h2]) hw
  have hcast : collect (args.map (castTo E T)) = .ok (ws.map some) :=
    collect_of args ws (fun a ha w hw => by
      cases a with
      | arr t ys => cases hw
      | num t v c =>
        have h1 : E.static t T = true := E.static_of _ _ (ht _ ha)
        have h2 : E.cast t T v = some w := hw
        simp only [castTo, h1, if_true, h2]) hw
  obtain ⟨vs, e, -, hlen⟩ := collect_ok convert_ok _ _ hconv
  rw [hw] at e
  cases e
  match args, h2 with
  | a :: b :: l, _ =>
    have hall : (a :: b :: l).all (takes E T) = true := List.all_eq_true.mpr ht
    have hb : brace E cls checks T (a :: b :: l).length (a :: b :: l) =
        if cls ≠ .math ∧ (a :: b :: l).any (narrow E T) = true then .illFormed else .ok (ws.map some) := by
      rw [brace]
      · cases cls with
        | math =>
          rw [if_neg (by simp [hasList]), best_many, if_pos ⟨by simp, by simp, fun h => by cases h⟩]
          dsimp only
          rw [if_neg (fun h => h.1 rfl)]
          exact hcast
        | multi =>
          rw [if_pos ⟨rfl, hall⟩, listBody, hconv]
          cases (a :: b :: l).any (narrow E T) with
          | true => simp
          | false => simp [copyInto, hlen]
        | dim =>
          rw [if_pos ⟨rfl, hall⟩, listBody, hconv]
          cases (a :: b :: l).any (narrow E T) with
          | true => simp
          | false => simp [copyInto, hlen]
      · exact fun e => by cases e
    refine ⟨?_, hb, ?_⟩
    · simp only [make, paren]
      rw [best_many]
      cases cls with
      | math => rw [if_pos ⟨by simp, by simp, fun h => by cases h⟩, if_neg (by simp)]; exact hcast
      | multi => simp
      | dim =>
        cases he : (a :: b :: l).all (exactly T) with
        | true => rw [if_pos ⟨by simp, by simp, fun _ => rfl⟩, if_neg (by simp)]; exact hcast
        | false => rw [if_neg (by simp), if_pos (by simp)]
    · have : make E cls checks T (a :: b :: l).length .assignBrace (a :: b :: l) =
          throughCopy (brace E cls checks T (a :: b :: l).length (a :: b :: l)) := by
        cases cls <;> cases a <;> rfl
      rw [this]
      simp only [make]
      rw [hb]
      split
      · rfl
      · simp only [throughCopy, all_map, if_true]

example : make demo .dim true true 2 .brace [.num false 1 true, .num true 25 false] = .ok [some 10, some 25] :=
  (C102_values demo .dim true true [.num false 1 true, .num true 25 false] (by decide)
    (by intro a ha; simp only [List.mem_cons, List.not_mem_nil, or_false] at ha; rcases ha with rfl | rfl <;> rfl)
    (ws := [10, 25]) rfl).2.1

/-- all conversions of the arguments are defined -/
def Defined (E : Types Ty V) (T : Ty) : Arg Ty V → Prop
  | .num t v _ => ∃ w, E.cast t T v = some w
  | .arr t xs => ∀ x ∈ xs, ∃ w, E.cast t T x = some w

/-- made, or refused by the compiler -/
def Fair (m : Made V) : Prop := m = .illFormed ∨ ∃ xs, m = .ok xs

theorem fair_collect : ∀ (ms : List (Made V)), (∀ m ∈ ms, Fair m) → Fair (collect ms) := by
  intro ms
  induction ms with
  | nil => intro _; exact .inr ⟨[], rfl⟩
  | cons m ms ih =>
    intro h
    rw [collect]
    rcases h m (by simp) with e | ⟨xs, e⟩ <;> rcases ih (fun m hm => h m (List.mem_cons_of_mem _ hm)) with e' | ⟨ys, e'⟩ <;>
      rw [e, e']
    · exact .inl rfl
    · exact .inl rfl
    · exact .inl rfl
    · exact .inr ⟨_, rfl⟩

omit [DecidableEq Ty] in
theorem fair_convert {E : Types Ty V} {T : Ty} {a : Arg Ty V} (h : Defined E T a) : Fair (convert E T a) := by
  cases a with
  | arr t xs => exact .inl rfl
  | num t v c =>
    obtain ⟨w, hw⟩ := h
    simp only [convert, hw]
    split
    · exact .inr ⟨_, rfl⟩
    · exact .inl rfl

omit [DecidableEq Ty] in
theorem fair_castTo {E : Types Ty V} {T : Ty} {a : Arg Ty V} (h : Defined E T a) : Fair (castTo E T a) := by
  cases a with
  | arr t xs => exact .inl rfl
  | num t v c =>
    obtain ⟨w, hw⟩ := h
    simp only [castTo, hw]
    split
    · exact .inr ⟨_, rfl⟩
    · exact .inl rfl

theorem fair_fill {m : Made V} (n : Nat) (h : Fair m) : Fair (fillWith n m) := by
  rcases h with rfl | ⟨xs, rfl⟩
  · exact .inl rfl
  · unfold fillWith
    split
    · exact .inr ⟨_, rfl⟩
    · exact .inr ⟨_, rfl⟩

theorem fair_body {E : Types Ty V} {cls : Cls} {b : Bool} {T : Ty} {n : Nat} {c : Cand} {args : List (Arg Ty V)}
    (h : ∀ a ∈ args, Defined E T a) : Fair (body E cls b T n c args) := by
  unfold body
  split
  · exact .inr ⟨_, rfl⟩
  · rename_i t xs
    split
    · exact .inr ⟨_, rfl⟩
    · split
      · refine fair_collect _ fun m hm => ?_
        obtain ⟨x, hx, rfl⟩ := List.mem_map.mp hm
        exact fair_convert (h (.arr t xs) (by simp) x hx)
      · exact .inl rfl
  · exact fair_fill n (fair_convert (h _ (by simp)))
  · exact fair_fill n (fair_convert (h _ (by simp)))
  · refine fair_collect _ fun m hm => ?_
    obtain ⟨x, hx, rfl⟩ := List.mem_map.mp hm
    exact fair_castTo (h x hx)
  · exact .inl rfl

theorem fair_brace {E : Types Ty V} {cls : Cls} {T : Ty} {n : Nat} {args : List (Arg Ty V)}
    (h : ∀ a ∈ args, Defined E T a) : Fair (brace E cls true T n args) ∨ brace E cls true T n args = .assertFail := by
  match args with
  | [] => exact .inl (.inr ⟨_, rfl⟩)
  | a :: l =>
    rw [brace]
    · split
      · unfold listBody
        split
        · exact .inl (.inl rfl)
        · rcases fair_collect ((a :: l).map (convert E T)) (fun m hm => by
            obtain ⟨x, hx, rfl⟩ := List.mem_map.mp hm
            exact fair_convert (h x hx)) with e | ⟨xs, e⟩
          · rw [e]; exact .inl (.inl rfl)
          · rw [e]
            dsimp only
            split
            · exact .inl (fair_fill n (.inr ⟨xs, rfl⟩))
            · split
              · exact .inr rfl
              · rename_i hn
                obtain ⟨ws, -, rfl, h3⟩ := collect_ok convert_ok _ _ e
                have : (a :: l).length = n := Decidable.byContradiction fun hne => hn ⟨rfl, hne⟩
                simp only [copyInto, List.length_map, h3, this, Nat.le_refl, if_true]
                exact .inl (.inr ⟨_, rfl⟩)
      · split
        · split
          · exact .inl (.inl rfl)
          · exact .inl (fair_body h)
        · exact .inl (fair_body h)
        · exact .inl (.inl rfl)
    · exact fun e => by cases e

/-- **C102** With assertions on, making an array is never undefined, as long as the conversions of
the numbers themselves are defined: it is made, or does not compile, or the assertion stops it. -/
theorem C102_defined (E : Types Ty V) (cls : Cls) (T : Ty) (n : Nat) (f : Form) (args : List (Arg Ty V))
    (hs : ∀ a ∈ args, Sized n a) (hd : ∀ a ∈ args, Defined E T a) : make E cls true T n f args ≠ .ub := by
  have fair : ∀ {m : Made V}, Fair m → m ≠ .ub := by
    rintro m (rfl | ⟨xs, rfl⟩) <;> simp
  have hb : brace E cls true T n args ≠ .ub := by
    rcases fair_brace (E := E) (cls := cls) (n := n) hd with h | h
    · exact fair h
    · rw [h]; simp
  cases f with
  | paren =>
    simp only [make, paren]
    split
    · exact fair (fair_body hd)
    · simp
  | brace => exact hb
  | assign =>
    match args with
    | [x] =>
      simp only [make, assign]
      split
      · exact fair (fair_body hd)
      · simp
    | [] => simp [make]
    | _ :: _ :: _ => simp [make]
  | assignBrace =>
    have hc : throughCopy (brace E cls true T n args) ≠ .ub := by
      cases h : brace E cls true T n args with
      | ok xs =>
        obtain ⟨ws, -, rfl, -⟩ := brace_means hs h
        simp only [throughCopy, all_map, if_true]
        simp
      | ub => exact absurd h hb
      | _ => simp [throughCopy]
    simp only [make, assignBrace]
    split
    · simp
    · split
      · split
        · simp
        · exact fair (fair_body hd)
      · exact hc
    · exact hc

/-- too many numbers stop at the assertion -/
example : make demo .dim true true 2 .brace [.num true 1 true, .num true 2 true, .num true 3 true] = .assertFail ∧
    make demo .dim true true 2 .brace [.num true 1 true, .num true 2 true, .num true 3 true] ≠ .ub :=
  ⟨by decide, C102_defined demo .dim true 2 .brace [.num true 1 true, .num true 2 true, .num true 3 true]
    (by simp [Sized]) (by simp [Defined, demo])⟩

/-- **C102** Two or more numbers, but not one for each element: refused, by the compiler or by the
assertion, in every class and however written. -/
theorem C102_count (E : Types Ty V) (cls : Cls) (T : Ty) (n : Nat) (f : Form) (args : List (Arg Ty V))
    (hs : ∀ a ∈ args, Sized n a) (hd : ∀ a ∈ args, Defined E T a) (h2 : 2 ≤ args.length) (hn : args.length ≠ n) :
    make E cls true T n f args = .illFormed ∨ make E cls true T n f args = .assertFail := by
  cases h : make E cls true T n f args with
  | illFormed => exact .inl rfl
  | assertFail => exact .inr rfl
  | ub => exact absurd h (C102_defined E cls T n f args hs hd)
  | ok xs =>
    obtain ⟨ws, h1, -, -⟩ := C102_means E cls T n f args hs h
    match args, h2 with
    | a :: b :: l, _ =>
      have : meaning E T n (a :: b :: l) = if (a :: b :: l).length = n then (a :: b :: l).mapM (valueOf E T) else none := by
        cases a <;> rfl
      rw [this, if_neg hn] at h1
      cases h1

example : make demo .math true true 3 .brace [.num true 1 true, .num true 2 true] = .illFormed := by decide

/-- **C102** is false without assertions: a list of numbers shorter than the array leaves the other
elements indeterminate, and a longer one writes beyond the array, which is undefined. -/
theorem C102_unchecked_fails (E : Types Ty V) (cls : Cls) (hc : cls ≠ .math) (T : Ty) (n : Nat) (vs : List V)
    (h2 : 2 ≤ vs.length) :
    (vs.length < n → make E cls false T n .brace (vs.map fun v => .num T v false) =
      .ok (vs.map some ++ List.replicate (n - vs.length) none)) ∧
    (n < vs.length → make E cls false T n .brace (vs.map fun v => .num T v false) = .ub) := by
  have hconv : collect ((vs.map fun v => Arg.num T v false).map (convert E T)) = .ok (vs.map some) := by
    clear h2
    induction vs with
    | nil => rfl
    | cons v vs ih =>
      rw [List.map_cons, List.map_cons, collect, ih]
      simp only [convert, E.implicit_self, if_true, E.cast_self]
      rfl
  have hall : (vs.map fun v => Arg.num T v false).all (takes E T) = true := by
    simp [takes, E.implicit_self]
  have hany : (vs.map fun v => Arg.num T v false).any (narrow E T) = false := by
    simp [narrow, E.narrows_self]
  have hl : hasList cls = true := by cases cls <;> first | rfl | exact absurd rfl hc
  have hb : brace E cls false T n (vs.map fun v => .num T v false) = copyInto n (.ok (vs.map some)) := by
    match vs, h2 with
    | v :: v' :: vs, _ =>
      rw [List.map_cons] at hall hany hconv ⊢
      rw [brace]
      · rw [if_pos ⟨hl, hall⟩, listBody, hany, hconv]
        simp
      · exact fun e => by cases e
  refine ⟨fun h => ?_, fun h => ?_⟩
  · simp only [make, hb, copyInto, List.length_map, if_pos (Nat.le_of_lt h)]
  · simp only [make, hb, copyInto, List.length_map, if_neg (by omega : ¬ vs.length ≤ n)]

example : make demo .dim false true 3 .brace [.num true 1 false, .num true 2 false] = .ok [some 1, some 2, none] ∧
    make demo .dim false true 2 .brace [.num true 1 false, .num true 2 false, .num true 3 false] = .ub := by decide

end Verif.Making
