import Verif.InputEngine.ByTuple
import Verif.InputEngine.Props

/-!
# C106 - C107: doing something for every type; the report of what is unresolved
-/

namespace Verif.InputEngine

/-! ## C106: one call for every type, in order -/

section each
variable {Ty A S R : Type}

/-- **C106** the index of a type in a tuple is the position of its first occurrence -/
theorem C106_index_iff [DecidableEq Ty] (τ : Ty) (l : List Ty) (i : Nat) :
    tupleIndex τ l = some i ↔ l[i]? = some τ ∧ ∀ j < i, l[j]? ≠ some τ := by
  induction l generalizing i with
  | nil => simp [tupleIndex]
  | cons σ l ih =>
    by_cases h : σ = τ
    · subst h
      simp only [tupleIndex, if_pos, Option.some.injEq]
      constructor
      · rintro rfl; simp
      · rintro ⟨_, h2⟩
        rcases Nat.eq_zero_or_pos i with h0 | h0
        · exact h0.symm
        · exact absurd rfl (h2 0 h0)
    · simp only [tupleIndex, if_neg h, Option.map_eq_some_iff]
      constructor
      · rintro ⟨k, hk, rfl⟩
        obtain ⟨h1, h2⟩ := (ih k).mp hk
        refine ⟨by rw [Nat.add_comm]; simpa using h1, fun j hj => ?_⟩
        cases j with
        | zero => simpa using h
        | succ j => simpa using h2 j (by omega)
      · rintro ⟨h1, h2⟩
        cases i with
        | zero => simp at h1; exact absurd h1 h
        | succ i =>
          refine ⟨i, (ih i).mpr ⟨by simpa using h1, fun j hj => by simpa using h2 (j + 1) (by omega)⟩, by omega⟩

example : tupleIndex 'c' ['a', 'b', 'c', 'd', 'c'] = some 2 := by decide

/-- **C106** and a type that is not in the tuple is rejected by the compiler -/
theorem C106_index_absent_iff [DecidableEq Ty] (τ : Ty) (l : List Ty) : tupleIndex τ l = none ↔ τ ∉ l := by
  induction l with
  | nil => simp [tupleIndex]
  | cons σ l ih =>
    by_cases h : σ = τ
    · simp [tupleIndex, h]
    · simp [tupleIndex, h, ih, Ne.symm h]

example : tupleIndex 'x' ['a', 'b'] = none := by decide

/-- no call but the last changes the arguments: what it takes by value is an lvalue (copied), or
moving out of it does not change it -/
def Intact (moved : A → A) (pars : Ty → List Par) (tys : List Ty) (args : List (Arg A)) : Prop :=
  ∀ τ ∈ tys.dropLast, ∀ (j : Nat) (p : Par) (a : Arg A), (pars τ)[j]? = some p → args[j]? = some a →
    p = .byRef ∨ a.cat = .lvalue ∨ moved a.val = a.val

/-- every call gets as many arguments as it takes -/
def WellTyped (pars : Ty → List Par) (tys : List Ty) (args : List (Arg A)) : Prop :=
  ∀ τ ∈ tys, (pars τ).length = args.length

theorem after_eq_iff (moved : A → A) (p : Par) (a : Arg A) :
    a.after moved p = a ↔ p = .byRef ∨ a.cat = .lvalue ∨ moved a.val = a.val := by
  rcases a with ⟨c, v⟩
  cases p <;> cases c <;> simp [Arg.after]

theorem after_val_iff (moved : A → A) (p : Par) (a : Arg A) :
    (a.after moved p).val = a.val ↔ p = .byRef ∨ a.cat = .lvalue ∨ moved a.val = a.val := by
  rcases a with ⟨c, v⟩
  cases p <;> cases c <;> simp [Arg.after]

theorem after_cat (moved : A → A) (p : Par) (a : Arg A) : (a.after moved p).cat = a.cat := by
  rcases a with ⟨c, v⟩
  cases p <;> cases c <;> rfl

theorem zipWith_after (moved : A → A) (ps : List Par) (args : List (Arg A)) (hl : ps.length = args.length)
    (h : ∀ (j : Nat) (p : Par) (a : Arg A), ps[j]? = some p → args[j]? = some a →
      p = .byRef ∨ a.cat = .lvalue ∨ moved a.val = a.val) :
    List.zipWith (Arg.after moved) ps args = args := by
  induction args generalizing ps with
  | nil => cases ps <;> rfl
  | cons a args ih =>
    cases ps with
    | nil => simp at hl
    | cons p ps =>
      rw [List.zipWith_cons_cons, (after_eq_iff moved p a).mpr (h 0 p a rfl rfl),
        ih ps (by simpa using hl) (fun j p a h1 h2 => h (j + 1) p a (by simpa using h1) (by simpa using h2))]

theorem Intact.tail {moved : A → A} {pars : Ty → List Par} {τ : Ty} {τs : List Ty} {args : List (Arg A)}
    (h : Intact moved pars (τ :: τs) args) : Intact moved pars τs args := by
  intro σ hσ
  refine h σ ?_
  cases τs with
  | nil => simp at hσ
  | cons _ _ => simp only [List.dropLast_cons_cons, List.mem_cons]; exact .inr hσ

/-- passing on the arguments leaves them as they are, unless this is the last call -/
theorem next_args {moved : A → A} {pars : Ty → List Par} {τ : Ty} {τs : List Ty} {args : List (Arg A)}
    (hw : WellTyped pars (τ :: τs) args) (h : Intact moved pars (τ :: τs) args) (hne : τs ≠ []) :
    List.zipWith (Arg.after moved) (pars τ) args = args := by
  refine zipWith_after moved _ _ (hw τ (by simp)) (h τ ?_)
  cases τs with
  | nil => exact absurd rfl hne
  | cons _ _ => simp

theorem eachFrom_step {moved : A → A} {pars : Ty → List Par} (f : Ty → Nat → List A → S → S × Outcome R)
    {τ : Ty} {τs : List Ty} {args : List (Arg A)} (hw : WellTyped pars (τ :: τs) args)
    (h : Intact moved pars (τ :: τs) args) (i : Nat) (s : S) :
    eachFrom moved pars f (i + 1) τs (List.zipWith (Arg.after moved) (pars τ) args) s =
      eachFrom moved pars f (i + 1) τs args s := by
  cases τs with
  | nil => rfl
  | cons σ σs => rw [next_args hw h (by simp)]

theorem each_ok (moved : A → A) (pars : Ty → List Par) (f : Ty → Nat → List A → S → S × Outcome R)
    (tys : List Ty) (args : List (Arg A)) (hw : WellTyped pars tys args) (h : Intact moved pars tys args)
    (b : Nat) (s s' : S) (rs : List R) :
    eachFrom moved pars f b tys args s = (s', .ok rs) ↔
      ∃ st : Nat → S, st 0 = s ∧ st tys.length = s' ∧ rs.length = tys.length ∧
        ∀ (i : Nat) (τ : Ty), tys[i]? = some τ →
          ∃ r, rs[i]? = some r ∧ f τ (b + i) (args.map (·.val)) (st i) = (st (i + 1), .ok r) := by
  induction tys generalizing b s rs with
  | nil =>
    simp only [eachFrom, Prod.mk.injEq, Outcome.ok.injEq]
    constructor
    · rintro ⟨rfl, rfl⟩; exact ⟨fun _ => s, rfl, rfl, rfl, by simp⟩
    · rintro ⟨st, h1, h2, h3, _⟩
      exact ⟨h1.symm.trans h2, (List.length_eq_zero_iff.mp h3).symm⟩
  | cons τ τs ih =>
    rw [eachFrom]
    rcases hf : f τ b (args.map (·.val)) s with ⟨s1, o⟩
    rw [hf]
    have hw' : WellTyped pars τs args := fun σ hσ => hw σ (by simp [hσ])
    constructor
    · intro he
      cases o with
      | ok r =>
        simp only [eachFrom_step f hw h] at he
        rcases hq : eachFrom moved pars f (b + 1) τs args s1 with ⟨s2, o2⟩
        rw [hq] at he
        cases o2 with
        | ok rs' =>
          simp only [Prod.mk.injEq, Outcome.ok.injEq] at he
          obtain ⟨rfl, rfl⟩ := he
          obtain ⟨st, h0, hn, hl, hs⟩ := (ih hw' h.tail (b + 1) s1 rs').mp hq
          refine ⟨fun n => if n = 0 then s else st (n - 1), by simp, by simpa using hn, by simp [hl], ?_⟩
          intro i σ hi
          cases i with
          | zero =>
            simp only [List.getElem?_cons_zero, Option.some.injEq] at hi
            subst hi
            exact ⟨r, rfl, by simpa [h0] using hf⟩
          | succ i =>
            obtain ⟨r', hr', hf'⟩ := hs i σ (by simpa using hi)
            refine ⟨r', by simpa using hr', ?_⟩
            have : b + (i + 1) = b + 1 + i := by omega
            simpa [this] using hf'
        | _ => simp [failure] at he
      | _ => simp [failure] at he
    · rintro ⟨st, h0, hn, hl, hs⟩
      obtain ⟨r, hr, hfr⟩ := hs 0 τ rfl
      simp only [Nat.add_zero, Nat.zero_add, h0] at hfr
      rw [hf] at hfr
      obtain ⟨rfl, rfl⟩ := Prod.mk.inj hfr
      cases rs with
      | nil => simp at hr
      | cons r0 rs =>
        simp only [List.getElem?_cons_zero, Option.some.injEq] at hr
        subst hr
        simp only [eachFrom_step f hw h]
        have := (ih hw' h.tail (b + 1) (st 1) rs).mpr ⟨fun n => st (n + 1), rfl, hn, by simpa using hl, fun i σ hi => by
          obtain ⟨r', hr', hf'⟩ := hs (i + 1) σ (by simpa using hi)
          refine ⟨r', by simpa using hr', ?_⟩
          have h2 : b + (i + 1) = b + 1 + i := by omega
          rwa [h2] at hf'⟩
        rw [this]

/-- **C106** an operation for every type of a tuple makes one call for each type, in the order of the
tuple, each with the position of its type and with the arguments given, and returns the results in
that order; for any number of types, any function and any arguments that survive being passed
on. -/
theorem C106_in_order_iff (moved : A → A) (pars : Ty → List Par) (f : Ty → Nat → List A → S → S × Outcome R)
    (tys : List Ty) (args : List (Arg A)) (hne : tys ≠ []) (hw : WellTyped pars tys args)
    (h : Intact moved pars tys args) (s s' : S) (rs : List R) :
    byTuple moved pars f tys args s = some (s', .ok rs) ↔
      ∃ st : Nat → S, st 0 = s ∧ st tys.length = s' ∧ rs.length = tys.length ∧
        ∀ (i : Nat) (τ : Ty), tys[i]? = some τ →
          ∃ r, rs[i]? = some r ∧ f τ i (args.map (·.val)) (st i) = (st (i + 1), .ok r) := by
  rw [byTuple, if_neg hne, Option.some.injEq, each_ok moved pars f tys args hw h]
  simp only [Nat.zero_add]

/-- three types, the state a log of the calls -/
example : byTuple id (fun _ => [.byRef]) (fun (τ : Char) i (as : List Nat) (s : List (Char × Nat)) => (s ++ [(τ, i)], .ok (as.sum + i)))
    ['f', 'd', 'i'] [⟨.lvalue, 10⟩] [] = some ([('f', 0), ('d', 1), ('i', 2)], .ok [10, 11, 12]) := by decide

/-- not a value -/
def Failed {α : Type} (o : Outcome α) : Prop := ∀ a, o ≠ .ok a

theorem each_failed (moved : A → A) (pars : Ty → List Par) (f : Ty → Nat → List A → S → S × Outcome R)
    (tys : List Ty) (args : List (Arg A)) (hw : WellTyped pars tys args) (h : Intact moved pars tys args)
    (b : Nat) (s s' : S) (o : Outcome (List R)) (ho : Failed o) :
    eachFrom moved pars f b tys args s = (s', o) ↔
      ∃ (st : Nat → S) (n : Nat) (σ : Ty) (o' : Outcome R), st 0 = s ∧ tys[n]? = some σ ∧
        (∀ (i : Nat) (τ : Ty), i < n → tys[i]? = some τ →
          ∃ r, f τ (b + i) (args.map (·.val)) (st i) = (st (i + 1), .ok r)) ∧
        f σ (b + n) (args.map (·.val)) (st n) = (s', o') ∧ Failed o' ∧ o = failure o' := by
  induction tys generalizing b s with
  | nil =>
    simp only [eachFrom, Prod.mk.injEq]
    constructor
    · rintro ⟨_, rfl⟩; exact absurd rfl (ho [])
    · rintro ⟨st, n, σ, o', _, h2, _⟩; simp at h2
  | cons τ τs ih =>
    rw [eachFrom]
    rcases hf : f τ b (args.map (·.val)) s with ⟨s1, o1⟩
    rw [hf]
    have hw' : WellTyped pars τs args := fun σ hσ => hw σ (by simp [hσ])
    constructor
    · intro he
      by_cases h1 : ∃ r, o1 = .ok r
      · obtain ⟨r, rfl⟩ := h1
        simp only [eachFrom_step f hw h] at he
        rcases hq : eachFrom moved pars f (b + 1) τs args s1 with ⟨s2, o2⟩
        rw [hq] at he
        have hq' : Failed o2 ∧ s2 = s' ∧ o2 = o := by
          cases o2 with
          | ok rs' => simp only [Prod.mk.injEq] at he; exact absurd he.2.symm (ho _)
          | _ =>
            simp only [failure, Prod.mk.injEq] at he
            exact ⟨(fun a h => nomatch h), he.1, he.2⟩
        obtain ⟨_, rfl, rfl⟩ := hq'
        obtain ⟨st, n, σ, o', h0, hn, hs, hfσ, ho', hoo⟩ := (ih hw' h.tail (b + 1) s1).mp hq
        refine ⟨fun n => if n = 0 then s else st (n - 1), n + 1, σ, o', by simp, by simpa using hn, ?_, ?_, ho', hoo⟩
        · intro i ρ hi hρ
          cases i with
          | zero =>
            simp only [List.getElem?_cons_zero, Option.some.injEq] at hρ
            subst hρ
            exact ⟨r, by simpa [h0] using hf⟩
          | succ i =>
            obtain ⟨r', hf'⟩ := hs i ρ (by omega) (by simpa using hρ)
            have : b + (i + 1) = b + 1 + i := by omega
            exact ⟨r', by simpa [this] using hf'⟩
        · have : b + (n + 1) = b + 1 + n := by omega
          simpa [this] using hfσ
      · have h1' : Failed o1 := fun a ha => h1 ⟨a, ha⟩
        have he' : s1 = s' ∧ failure o1 = o := by
          cases o1 with
          | ok r => exact absurd rfl (h1' r)
          | _ => simpa using he
        exact ⟨fun _ => s, 0, τ, o1, rfl, rfl, fun i _ hi => by omega, by rw [← he'.1]; simpa using hf, h1', he'.2.symm⟩
    · rintro ⟨st, n, σ, o', h0, hn, hs, hfσ, ho', hoo⟩
      cases n with
      | zero =>
        simp only [List.getElem?_cons_zero, Option.some.injEq] at hn
        subst hn
        simp only [Nat.add_zero, h0, hf, Prod.mk.injEq] at hfσ
        obtain ⟨rfl, rfl⟩ := hfσ
        cases o1 with
        | ok r => exact absurd rfl (ho' r)
        | _ => simp [hoo]
      | succ n =>
        obtain ⟨r, hr⟩ := hs 0 τ (by omega) rfl
        simp only [Nat.add_zero, h0, hf, Prod.mk.injEq, Nat.zero_add] at hr
        obtain ⟨rfl, rfl⟩ := hr
        simp only [eachFrom_step f hw h]
        have := (ih hw' h.tail (b + 1) (st 1)).mpr ⟨fun k => st (k + 1), n, σ, o', rfl, by simpa using hn,
          fun i ρ hi hρ => by
            obtain ⟨r', hf'⟩ := hs (i + 1) ρ (by omega) (by simpa using hρ)
            have h2 : b + (i + 1) = b + 1 + i := by omega
            rw [h2] at hf'
            exact ⟨r', hf'⟩, by
            have h2 : b + (n + 1) = b + 1 + n := by omega
            rwa [h2] at hfσ, ho', hoo⟩
        rw [this]
        cases o' with
        | ok a => exact absurd rfl (ho' a)
        | _ => rw [hoo]; rfl

/-- **C106** and when a call throws, the calls before it have been made, those after it are not,
and the exception leaves the whole operation -/
theorem C106_first_failure_iff (moved : A → A) (pars : Ty → List Par) (f : Ty → Nat → List A → S → S × Outcome R)
    (tys : List Ty) (args : List (Arg A)) (hne : tys ≠ []) (hw : WellTyped pars tys args)
    (h : Intact moved pars tys args) (s s' : S) (x : String) :
    byTuple moved pars f tys args s = some (s', .throws x) ↔
      ∃ (st : Nat → S) (n : Nat) (σ : Ty), st 0 = s ∧ tys[n]? = some σ ∧
        (∀ (i : Nat) (τ : Ty), i < n → tys[i]? = some τ →
          ∃ r, f τ i (args.map (·.val)) (st i) = (st (i + 1), .ok r)) ∧
        f σ n (args.map (·.val)) (st n) = (s', .throws x) := by
  rw [byTuple, if_neg hne, Option.some.injEq, each_failed moved pars f tys args hw h _ _ _ _ (by intro a h; cases h)]
  simp only [Nat.zero_add]
  constructor
  · rintro ⟨st, n, σ, o', h0, hn, hs, hf, _, ho⟩
    refine ⟨st, n, σ, h0, hn, hs, ?_⟩
    cases o' with
    | throws y => simp only [failure, Outcome.throws.injEq] at ho; rw [ho]; exact hf
    | _ => simp [failure] at ho
  · rintro ⟨st, n, σ, h0, hn, hs, hf⟩
    exact ⟨st, n, σ, .throws x, h0, hn, hs, hf, (fun a h => nomatch h), rfl⟩

/-- the second of three types throws: the first call has been made, the third is not -/
example : byTuple id (fun _ => []) (fun (τ : Char) i (_ : List Nat) (s : List Char) =>
      if i = 1 then (s, (.throws "runtime_error" : Outcome Nat)) else (s ++ [τ], .ok i)) ['f', 'd', 'i'] [] [] =
    some (['f'], .throws "runtime_error") := by decide

/-- a function that only writes down the arguments it is called with -/
def recorder (_ : Ty) (_ : Nat) (as : List A) (log : List (List A)) : List (List A) × Outcome Unit := (log ++ [as], .ok ())

theorem recorder_run (moved : A → A) (pars : Ty → List Par) (tys : List Ty) (args : List (Arg A))
    (b : Nat) (log : List (List A)) :
    ∃ l, (eachFrom moved pars recorder b tys args log) = (log ++ l, .ok (List.replicate tys.length ())) ∧
      (l = (eachFrom moved pars recorder 0 tys args []).1) := by
  induction tys generalizing b args log with
  | nil => exact ⟨[], by simp [eachFrom], by simp [eachFrom]⟩
  | cons τ τs ih =>
    obtain ⟨l, h1, h2⟩ := ih (List.zipWith (Arg.after moved) (pars τ) args) (b + 1) (log ++ [args.map (·.val)])
    obtain ⟨l', h1', h2'⟩ := ih (List.zipWith (Arg.after moved) (pars τ) args) 1 [args.map (·.val)]
    refine ⟨args.map (·.val) :: l, ?_, ?_⟩
    · rw [eachFrom]
      simp only [recorder, h1, List.append_assoc, List.singleton_append, List.length_cons, List.replicate_succ]
    · rw [eachFrom]
      simp only [recorder, List.nil_append, h1', List.singleton_append]
      rw [h2, h2']

theorem zipWith_after_vals (moved : A → A) (ps : List Par) (args : List (Arg A)) (hl : ps.length = args.length)
    (h : (List.zipWith (Arg.after moved) ps args).map (·.val) = args.map (·.val)) :
    ∀ (j : Nat) (p : Par) (a : Arg A), ps[j]? = some p → args[j]? = some a →
      p = .byRef ∨ a.cat = .lvalue ∨ moved a.val = a.val := by
  induction args generalizing ps with
  | nil => intro j p a _ h2; simp at h2
  | cons a args ih =>
    cases ps with
    | nil => simp at hl
    | cons p ps =>
      simp only [List.zipWith_cons_cons, List.map_cons, List.cons.injEq] at h
      intro j q c h1 h2
      cases j with
      | zero =>
        simp only [List.getElem?_cons_zero, Option.some.injEq] at h1 h2
        subst h1 h2
        exact (after_val_iff moved p a).mp h.1
      | succ j => exact ih ps (by simpa using hl) h.2 j q c (by simpa using h1) (by simpa using h2)

/-- **C106** every call sees the arguments that were given exactly when each argument, at every
call but the last, is an lvalue, or taken by reference, or unchanged by moving out of it:
the same rvalue is forwarded again to every type -/
theorem C106_arguments_iff (moved : A → A) (pars : Ty → List Par) (tys : List Ty) (args : List (Arg A))
    (hne : tys ≠ []) (hw : WellTyped pars tys args) :
    byTuple moved pars recorder tys args [] =
        some (List.replicate tys.length (args.map (·.val)), .ok (List.replicate tys.length ())) ↔
      Intact moved pars tys args := by
  rw [byTuple, if_neg hne, Option.some.injEq]
  clear hne
  induction tys with
  | nil => simp [eachFrom, Intact]
  | cons τ τs ih =>
    have hw' : WellTyped pars τs args := fun σ hσ => hw σ (by simp [hσ])
    obtain ⟨l, h1, h2⟩ := recorder_run moved pars τs (List.zipWith (Arg.after moved) (pars τ) args) 1 [args.map (·.val)]
    have hgo : eachFrom moved pars recorder 0 (τ :: τs) args [] =
        (args.map (·.val) :: l, .ok (List.replicate (τs.length + 1) ())) := by
      rw [eachFrom]
      simp only [recorder, List.nil_append, Nat.zero_add, h1, List.singleton_append, List.replicate_succ]
    rw [hgo, h2]
    simp only [List.length_cons, List.replicate_succ, Prod.mk.injEq, List.cons.injEq, true_and, and_true]
    obtain ⟨l0, h10, h20⟩ := recorder_run moved pars τs args 0 []
    have ih' : (eachFrom moved pars recorder 0 τs args []).1 = List.replicate τs.length (args.map (·.val)) ↔
        Intact moved pars τs args := by
      rw [← ih hw']
      rw [h10]
      simp
    constructor
    · intro h
      cases τs with
      | nil => intro σ hσ; simp at hσ
      | cons σ σs =>
        have hz : (List.zipWith (Arg.after moved) (pars τ) args).map (·.val) = args.map (·.val) := by
          obtain ⟨l1, h11, h21⟩ := recorder_run moved pars σs
            (List.zipWith (Arg.after moved) (pars σ) (List.zipWith (Arg.after moved) (pars τ) args)) 1
            [(List.zipWith (Arg.after moved) (pars τ) args).map (·.val)]
          rw [eachFrom] at h
          simp only [recorder, List.nil_append, Nat.zero_add, h11, List.singleton_append, List.length_cons,
            List.replicate_succ, List.cons.injEq] at h
          exact h.1
        have hstep := zipWith_after_vals moved (pars τ) args (hw τ (by simp)) hz
        have hi : Intact moved pars (σ :: σs) args := by
          refine ih'.mp ?_
          rwa [zipWith_after moved _ _ (hw τ (by simp)) hstep] at h
        intro ρ hρ
        simp only [List.dropLast_cons_cons, List.mem_cons] at hρ
        rcases hρ with rfl | hρ
        · exact hstep
        · exact hi ρ hρ
    · intro h
      cases τs with
      | nil => rfl
      | cons σ σs =>
        rw [next_args hw h (by simp)]
        exact ih'.mpr h.tail

/-- a string given as a temporary to functions that take references -/
example : byTuple (fun (_ : List Char) => []) (fun _ => [.byRef]) recorder ['f', 'd'] [⟨.rvalue, ['a', 'b']⟩] [] =
    some ([[['a', 'b']], [['a', 'b']]], .ok [(), ()]) := by decide

/-- **C106** a temporary string given to functions that take it by value reaches only the first: the
second gets what moving has left of it -/
theorem C106_arguments_fails :
    byTuple (fun (_ : List Char) => []) (fun _ => [.byValue]) recorder ['f', 'd'] [⟨.rvalue, ['a', 'b']⟩] [] =
      some ([[['a', 'b']], [[]]], .ok [(), ()]) := by decide

/-- **C106** for a program without input types nothing of this compiles -/
theorem C106_no_types_fails (moved : A → A) (pars : Ty → List Par) (f : Ty → Nat → List A → S → S × Outcome R)
    (args : List (Arg A)) (s : S) : byTuple moved pars f [] args s = none := rfl

/-- one type is enough -/
example : byTuple id (fun _ => []) (fun (_ : Char) i (_ : List Nat) (s : Nat) => (s, .ok i)) ['f'] [] 5 = some (5, .ok [0]) := by decide

end each

/-! ## C106: the engine's own use of them -/

section engine
variable {K Ty L : Type} {Val : Ty → Type} [LinearOrder K] [DecidableEq Ty]

theorem resolve_each (env : Env K Ty L Val) (tys : List Ty) (b : Nat) (e : Engine K Ty L Val) :
    eachFrom id (fun _ => []) (resolveCall env) b tys [] e = resolveTypes env tys e := by
  induction tys generalizing b e with
  | nil => rfl
  | cons τ τs ih =>
    rw [eachFrom, resolveTypes]
    simp only [resolveCall]
    rcases hr : resolveType env e.lua e.hc τ (e.slot τ) with ⟨s, o⟩
    cases o with
    | ok r =>
      simp only [List.zipWith_nil_right]
      rw [ih]
      rcases hq : resolveTypes env τs (e.setSlot τ s) with ⟨e2, o2⟩
      cases o2 <;> simp [failure]
    | _ => simp [failure]

/-- **C106** resolving the inputs is the resolution of one type after the other, with the sources of the
engine for each of them -/
theorem C106_resolve (env : Env K Ty L Val) (tys : List Ty) (hne : tys ≠ []) (e : Engine K Ty L Val) :
    byTuple id (fun _ => []) (resolveCall env) tys [] e = some (resolveTypes env tys e) := by
  rw [byTuple, if_neg hne, resolve_each]

example : ∃ e', byTuple id (fun _ => []) (resolveCall (demo3 false)) [()] [] twoTargets = some (e', .ok [true]) := by
  rw [C106_resolve _ _ (by simp)]
  have hs : ({3, 4} : Finset Nat).sort (· ≤ ·) = [3, 4] := (List.toFinset_sort (r := (· ≤ ·)) (l := [3, 4]) (by decide)).2 (by decide)
  have ht := twoTargets_targets
  simp [resolveTypes, resolveType, Engine.slot, ht, hs, resolveLoop, lookup]
  simp [twoTargets, registerTarget, registerHardCodedSource, setHardCoded, registerLuaSource, demoLua,
    LuaSource.get, slice, demo3, fresh]

omit [LinearOrder K] in
theorem clear_each (tys : List Ty) (b : Nat) (e : Engine K Ty L Val) :
    eachFrom id (fun _ => []) (clearCall (K := K) (L := L) (Val := Val)) b tys [] e =
      (clearRegistry tys e, .ok (List.replicate tys.length ())) := by
  induction tys generalizing b e with
  | nil => simp [eachFrom, clearRegistry]
  | cons τ τs ih =>
    rw [eachFrom]
    simp only [clearCall, List.zipWith_nil_right]
    have := ih (b + 1) { e with st := Function.update e.st τ { e.st τ with reg := fun _ => none, targets := ∅, failed := ∅ } }
    simp only [this, List.length_cons, List.replicate_succ, Prod.mk.injEq, and_true]
    simp only [clearRegistry, Engine.mk.injEq, and_true]
    funext σ
    by_cases h : σ = τ
    · subst h
      by_cases h2 : σ ∈ τs <;> simp [h2]
    · by_cases h2 : σ ∈ τs <;> simp [h2, h]

omit [LinearOrder K] in
/-- **C106** clearing empties the registries of exactly the types of the tuple, repeated or not -/
theorem C106_clear (tys : List Ty) (hne : tys ≠ []) (e : Engine K Ty L Val) :
    ∃ e', byTuple id (fun _ => []) (clearCall (K := K) (L := L) (Val := Val)) tys [] e =
        some (e', .ok (List.replicate tys.length ())) ∧ e'.lua = e.lua ∧ e'.hc = e.hc ∧ e'.hcData = e.hcData ∧
      ∀ τ, (τ ∉ tys → e'.st τ = e.st τ) ∧
        (τ ∈ tys → (∀ k, (e'.st τ).reg k = none) ∧ (e'.st τ).targets = ∅ ∧ (e'.st τ).failed = ∅ ∧
          (e'.st τ).resolveCalled = (e.st τ).resolveCalled ∧ (e'.st τ).allResolved = (e.st τ).allResolved) := by
  refine ⟨clearRegistry tys e, by rw [byTuple, if_neg hne, clear_each], rfl, rfl, rfl, fun τ => ⟨fun h => ?_, fun h => ?_⟩⟩
  · simp [clearRegistry, h]
  · simp [clearRegistry, h]

example : (clearRegistry [()] threeTargets).st () = (fresh : Engine Nat Unit Nat (fun _ => Nat)).st () := by
  simp [clearRegistry, threeTargets, twoTargets, registerTarget, registerHardCodedSource, setHardCoded, registerLuaSource, fresh]

/-- **C106** registering a set of names adds exactly these to the targets of that type and changes
nothing else -/
theorem C106_register_targets (τ : Ty) (names : Finset K) (e : Engine K Ty L Val) :
    (registerTargets τ names e).lua = e.lua ∧ (registerTargets τ names e).hc = e.hc ∧
      (registerTargets τ names e).hcData = e.hcData ∧
      (∀ σ ≠ τ, (registerTargets τ names e).st σ = e.st σ) ∧
      (registerTargets τ names e).st τ = { e.st τ with targets := (e.st τ).targets ∪ names } := by
  have hgo : ∀ (l : List K) (e : Engine K Ty L Val),
      l.foldl (fun e k => registerTarget τ k e) e =
        { e with st := Function.update e.st τ { e.st τ with targets := (e.st τ).targets ∪ l.toFinset } } := by
    intro l
    induction l with
    | nil => intro e; simp
    | cons k l ih =>
      intro e
      rw [List.foldl_cons, ih]
      simp only [registerTarget, Function.update_self, Function.update_idem, List.toFinset_cons, Engine.mk.injEq, and_true]
      rw [Finset.insert_union, Finset.union_insert]
  rw [registerTargets, hgo]
  refine ⟨rfl, rfl, rfl, fun σ hσ => by simp [hσ], by simp⟩

example : (registerTargets () {5, 9} threeTargets).st () = { threeTargets.st () with targets := {3, 4, 5, 9} } := by
  rw [(C106_register_targets () {5, 9} threeTargets).2.2.2.2, threeTargets_targets]
  congr 1

/-! ## C107: the report -/

/-- no source has a value for the target: the Lua source is absent or silent, and there is no default -/
def Unfound (env : Env K Ty L Val) (e : Engine K Ty L Val) (τ : Ty) (k : K) : Prop :=
  LuaSilent env e τ k ∧ (e.hc = false ∨ e.hcData τ k = none)

omit [DecidableEq Ty] in
theorem print_each (e : Engine K Ty L Val) (bs pre : List Bool) (tys : List Ty) (out : List (Line K Ty))
    (hl : bs.length = tys.length) :
    ∃ us, eachFrom id (fun _ => [.byRef]) (printCall e) pre.length tys [⟨.lvalue, pre ++ bs⟩] out =
      (out ++ (tys.zip bs).filterMap (fun p => if p.2 then none else some ⟨p.1, (e.st p.1).failed.sort (· ≤ ·)⟩), .ok us) := by
  induction tys generalizing bs pre out with
  | nil => exact ⟨[], by simp [eachFrom]⟩
  | cons τ τs ih =>
    cases bs with
    | nil => simp at hl
    | cons b bs =>
      rw [eachFrom]
      have hi : (pre ++ b :: bs)[pre.length]? = some b := by simp
      have ht : pre ++ b :: bs = (pre ++ [b]) ++ bs := by simp
      have hlen : pre.length + 1 = (pre ++ [b]).length := by simp
      cases b with
      | true =>
        obtain ⟨us, hus⟩ := ih bs (pre ++ [true]) out (by simpa using hl)
        refine ⟨() :: us, ?_⟩
        simp only [List.map_cons, List.map_nil, printCall, hi, List.zipWith_cons_cons, List.zipWith_nil_right, Arg.after]
        rw [hlen, ht, hus]
        simp
      | false =>
        obtain ⟨us, hus⟩ := ih bs (pre ++ [false]) (out ++ [⟨τ, (e.st τ).failed.sort (· ≤ ·)⟩]) (by simpa using hl)
        refine ⟨() :: us, ?_⟩
        simp only [List.map_cons, List.map_nil, printCall, hi, List.zipWith_cons_cons, List.zipWith_nil_right, Arg.after]
        rw [hlen, ht, hus]
        simp

theorem resolveTypes_length (env : Env K Ty L Val) (tys : List Ty) (e e' : Engine K Ty L Val) (bs : List Bool)
    (h : resolveTypes env tys e = (e', .ok bs)) : bs.length = tys.length := by
  induction tys generalizing e bs with
  | nil => simp only [resolveTypes, Prod.mk.injEq, Outcome.ok.injEq] at h; simp [← h.2]
  | cons τ τs ih =>
    rw [resolveTypes] at h
    rcases hr : resolveType env e.lua e.hc τ (e.slot τ) with ⟨s, o⟩
    rw [hr] at h
    cases o with
    | ok b =>
      simp only at h
      rcases hq : resolveTypes env τs (e.setSlot τ s) with ⟨e2, o2⟩
      rw [hq] at h
      cases o2 with
      | ok bs' =>
        simp only [Prod.mk.injEq, Outcome.ok.injEq] at h
        obtain ⟨rfl, rfl⟩ := h
        simp [ih _ _ hq]
      | _ => simp at h
    | _ => simp at h

/-- **C107** reporting does not affect the resolution: with its report `resolve_inputs()` leaves the
same state and returns or throws the same as resolving alone; in particular looking up the
result of each type in the report is always in range -/
theorem C107_report_harmless (env : Env K Ty L Val) (tys : List Ty) (e : Engine K Ty L Val) :
    (resolveReporting env tys e).1 = (resolveInputs env tys e).1 ∧
      (resolveReporting env tys e).2.bind (fun r => .ok r.1) = (resolveInputs env tys e).2 := by
  rw [resolveReporting, resolveInputs, resolve_each]
  rcases hq : resolveTypes env tys e with ⟨e', o⟩
  cases o with
  | ok bs =>
    have hl := resolveTypes_length env tys e e' bs hq
    simp only
    cases hb : bs.foldl (· && ·) true with
    | true => simp [Outcome.bind]
    | false =>
      obtain ⟨us, hus⟩ := print_each e' bs [] tys [] hl
      simp only [List.length_nil, List.nil_append] at hus
      simp [hus, Outcome.bind]
  | _ => simp [failure, Outcome.bind]

example : ∃ e' l, resolveReporting (demo3 false) [()] threeTargets = (e', .ok (false, l)) := by
  obtain ⟨e', h⟩ := threeTargets_resolve false
  have h2 := (C107_report_harmless (demo3 false) [()] threeTargets).2
  rcases hr : resolveReporting (demo3 false) [()] threeTargets with ⟨e2, o⟩
  rw [hr, h] at h2
  cases o with
  | ok r =>
    obtain ⟨b, l⟩ := r
    simp only [Outcome.bind, Outcome.ok.injEq] at h2
    subst h2
    exact ⟨e2, l, rfl⟩
  | _ => simp [Outcome.bind] at h2

theorem nowhere_iff {env : Env K Ty L Val} {e : Engine K Ty L Val} {τ : Ty} {k : K} {o : Origin (Val τ)}
    (h1 : origin env e.lua e.hc τ (e.hcData τ) k = some o) : o.isNowhere = true ↔ Unfound env e τ k := by
  constructor
  · intro hn
    have hno : o = .nowhere := by cases hx : o <;> simp [hx, Origin.isNowhere] at hn ⊢
    rw [hno] at h1
    unfold origin at h1
    rw [Unfound, LuaSilent]
    cases hl : e.lua with
    | none =>
      rw [hl] at h1
      simp only [Option.some.injEq] at h1
      refine ⟨.inl rfl, ?_⟩
      cases hc : e.hc with
      | false => exact .inl rfl
      | true =>
        cases hd : e.hcData τ k with
        | none => exact .inr rfl
        | some v => simp [hc, hd] at h1
    | some ls =>
      rw [hl] at h1
      simp only at h1
      cases hg : ls.get env τ k with
      | ok r =>
        cases r with
        | some v => simp [hg] at h1
        | none =>
          rw [hg] at h1
          simp only [Option.some.injEq] at h1
          refine ⟨.inr ⟨ls, rfl, hg⟩, ?_⟩
          cases hc : e.hc with
          | false => exact .inl rfl
          | true =>
            cases hd : e.hcData τ k with
            | none => exact .inr rfl
            | some v => simp [hc, hd] at h1
      | _ => simp [hg] at h1
  · rintro ⟨h2, h3⟩
    rw [origin_silent h2] at h1
    have h1 := Option.some.inj h1
    rw [← h1]
    rcases h3 with h3 | h3
    · rw [h3]; rfl
    · rw [h3]; cases e.hc <;> rfl

theorem zip_lines {α β : Type} (bf : α → Bool) (g : α → β) (l : List α) :
    (l.zip (l.map bf)).filterMap (fun p => if p.2 then none else some (g p.1)) = (l.filter fun x => !bf x).map g := by
  induction l with
  | nil => rfl
  | cons x l ih =>
    rw [List.map_cons, List.zip_cons_cons, List.filterMap_cons, List.filter_cons]
    cases hx : bf x
    · simpa using ih
    · simpa using ih

/-- what the report says, when the call returns -/
theorem report_ok (env : Env K Ty L Val) {tys : List Ty} (hnd : tys.Nodup) {e e' : Engine K Ty L Val} {b : Bool}
    {lines : List (Line K Ty)} (h : resolveReporting env tys e = (e', .ok (b, lines))) :
    resolveInputs env tys e = (e', .ok b) ∧
      ∃ bf : Ty → Bool, lines = (tys.filter fun τ => !bf τ).map (fun τ => ⟨τ, (e'.st τ).failed.sort (· ≤ ·)⟩) ∧
        ∀ τ ∈ tys, (bf τ = false ↔ ∃ k ∈ (e.st τ).targets, Unfound env e τ k) := by
  have hh := C107_report_harmless env tys e
  rw [h] at hh
  simp only [Outcome.bind] at hh
  have hri : resolveInputs env tys e = (e', .ok b) := by
    rcases hx : resolveInputs env tys e with ⟨x, y⟩
    rw [hx] at hh
    simp only at hh
    rw [← hh.1, ← hh.2]
  refine ⟨hri, ?_⟩
  obtain ⟨org, ho, hlua, hhc, hb, _, hτs⟩ := resolveInputs_ok env hnd hri
  have hnow : ∀ τ ∈ tys, ∀ k ∈ (e.st τ).targets, ((org τ k).isNowhere = true ↔ Unfound env e τ k) :=
    fun τ hτ k hk => nowhere_iff (ho τ hτ k hk)
  have hty : ∀ τ, ∃ b : Bool, τ ∈ tys → ((b = true ↔ ∀ k ∈ (e.st τ).targets, (org τ k).isNowhere = false) ∧
      (resolveType env e.lua e.hc τ (e.slot τ)).2 = .ok b) := by
    intro τ
    by_cases hτ : τ ∈ tys
    · obtain ⟨b, h1, h2⟩ := resolveType_eq env e.lua e.hc τ (org τ) (e.slot τ) (ho τ hτ)
      exact ⟨b, fun _ => ⟨h1, by rw [h2]⟩⟩
    · exact ⟨false, fun h => absurd h hτ⟩
  choose bf hbf using hty
  obtain ⟨e1, he1, _⟩ := resolveTypes_eq env tys hnd e bf (fun τ hτ => (hbf τ hτ).2)
  refine ⟨bf, ?_, fun τ hτ => ?_⟩
  · rw [resolveReporting, resolve_each, he1] at h
    simp only at h
    cases hb2 : (tys.map bf).foldl (· && ·) true with
    | true =>
      rw [hb2] at h
      simp only [if_true, Prod.mk.injEq, Outcome.ok.injEq] at h
      have hall := (foldl_and _ _).mp hb2
      rw [← h.2.2]
      symm
      simp only [List.map_eq_nil_iff, List.filter_eq_nil_iff, Bool.not_eq_true', Bool.not_eq_false]
      exact fun τ hτ => hall.2 _ (List.mem_map_of_mem hτ)
    | false =>
      rw [hb2] at h
      obtain ⟨us, hus⟩ := print_each e1 (tys.map bf) [] tys [] (by simp)
      simp only [List.length_nil, List.nil_append] at hus
      simp only [Bool.false_eq_true, if_false, hus, Prod.mk.injEq, Outcome.ok.injEq] at h
      obtain ⟨rfl, _, rfl⟩ := h
      exact zip_lines bf (fun τ => (⟨τ, (e1.st τ).failed.sort (· ≤ ·)⟩ : Line K Ty)) tys
  · have h1 := (hbf τ hτ).1
    constructor
    · intro hf
      by_contra hne
      push Not at hne
      have : bf τ = true := h1.mpr fun k hk => by
        cases hn : (org τ k).isNowhere with
        | false => rfl
        | true => exact absurd ((hnow τ hτ k hk).mp hn) (hne k hk)
      simp [this] at hf
    · rintro ⟨k, hk, hu⟩
      cases hbt : bf τ with
      | false => rfl
      | true =>
        have := h1.mp hbt k hk
        rw [(hnow τ hτ k hk).mpr hu] at this
        cases this

/-- **C107** the report has one line for each type with an unresolved target, in the order of the types,
and none for the others; so nothing is printed exactly when everything is resolved -/
theorem C107_types (env : Env K Ty L Val) {tys : List Ty} (hnd : tys.Nodup) {e e' : Engine K Ty L Val} {b : Bool}
    {lines : List (Line K Ty)} (h : resolveReporting env tys e = (e', .ok (b, lines))) :
    (lines.map (·.type)).Sublist tys ∧
      (∀ τ, τ ∈ lines.map (·.type) ↔ τ ∈ tys ∧ ∃ k ∈ (e.st τ).targets, Unfound env e τ k) ∧
      (lines = [] ↔ b = true) := by
  obtain ⟨hri, bf, rfl, hbf⟩ := report_ok env hnd h
  have hm : ∀ l : List Ty, (l.map (fun τ => (⟨τ, (e'.st τ).failed.sort (· ≤ ·)⟩ : Line K Ty))).map (·.type) = l := by
    intro l; simp [Function.comp_def]
  refine ⟨?_, ?_, ?_⟩
  · rw [hm]; exact List.filter_sublist
  · intro τ
    rw [hm, List.mem_filter]
    constructor
    · rintro ⟨h1, h2⟩; exact ⟨h1, (hbf τ h1).mp (by simpa using h2)⟩
    · rintro ⟨h1, h2⟩; exact ⟨h1, by simpa using (hbf τ h1).mpr h2⟩
  · rw [List.map_eq_nil_iff, List.filter_eq_nil_iff]
    rw [resolveReporting, resolve_each] at h
    rcases hq : resolveTypes env tys e with ⟨e1, o⟩
    rw [resolveInputs, hq] at hri
    cases o with
    | ok bs =>
      simp only [Prod.mk.injEq, Outcome.ok.injEq] at hri
      obtain ⟨rfl, hb⟩ := hri
      obtain ⟨org, ho, _, _, hb', _⟩ := resolveInputs_ok env hnd (e := e) (e' := e1) (b := b)
        (by rw [resolveInputs, hq]; simp only [hb])
      rw [hb']
      simp only [Bool.not_eq_true', Bool.not_eq_false]
      constructor
      · intro hall τ hτ k hk
        cases hn : (org τ k).isNowhere with
        | false => rfl
        | true =>
          exfalso
          have hx := hall τ hτ
          have hy := (not_congr (hbf τ hτ)).mp (by simp [hx])
          refine hy ⟨k, hk, ?_⟩
          exact (nowhere_iff (ho τ hτ k hk)).mp hn
      · intro hall τ hτ
        cases hx : bf τ with
        | true => rfl
        | false =>
          obtain ⟨k, hk, hu⟩ := (hbf τ hτ).mp hx
          have h2 := hall τ hτ k hk
          rw [(nowhere_iff (ho τ hτ k hk)).mpr hu] at h2
          cases h2
    | _ => simp at hri

/-- **C107** the names on the line of a type are those unresolved now together with all that failed
in earlier attempts, each once and in order -/
theorem C107_names (env : Env K Ty L Val) {tys : List Ty} (hnd : tys.Nodup) {e e' : Engine K Ty L Val} {b : Bool}
    {lines : List (Line K Ty)} (h : resolveReporting env tys e = (e', .ok (b, lines))) :
    ∀ l ∈ lines, l.names.SortedLT ∧
      ∀ k, k ∈ l.names ↔ k ∈ (e.st l.type).failed ∨ (k ∈ (e.st l.type).targets ∧ Unfound env e l.type k) := by
  obtain ⟨hri, bf, rfl, hbf⟩ := report_ok env hnd h
  obtain ⟨org, ho, _, _, _, _, hτs⟩ := resolveInputs_ok env hnd hri
  intro l hl
  obtain ⟨τ, hτ, rfl⟩ := List.mem_map.mp hl
  have hτ := (List.mem_filter.mp hτ).1
  refine ⟨Finset.sortedLT_sort _, fun k => ?_⟩
  simp only [Finset.mem_sort]
  rw [(hτs τ hτ).2.2.1 k]
  constructor
  · rintro (h1 | ⟨h1, h2⟩)
    · exact .inl h1
    · exact .inr ⟨h1, (nowhere_iff (ho τ hτ k h1)).mp h2⟩
  · rintro (h1 | ⟨h1, h2⟩)
    · exact .inl h1
    · exact .inr ⟨h1, (nowhere_iff (ho τ hτ k h1)).mpr h2⟩

/-- **C107** so the report names exactly the unresolved targets if and only if, for every type it
mentions, whatever failed before is a target that is unresolved now -/
theorem C107_exact_iff (env : Env K Ty L Val) {tys : List Ty} (hnd : tys.Nodup) {e e' : Engine K Ty L Val} {b : Bool}
    {lines : List (Line K Ty)} (h : resolveReporting env tys e = (e', .ok (b, lines))) :
    (∀ l ∈ lines, ∀ k, k ∈ l.names ↔ k ∈ (e.st l.type).targets ∧ Unfound env e l.type k) ↔
      ∀ τ ∈ tys, (∃ k ∈ (e.st τ).targets, Unfound env e τ k) →
        ∀ k ∈ (e.st τ).failed, k ∈ (e.st τ).targets ∧ Unfound env e τ k := by
  have hn := C107_names env hnd h
  have ht := (C107_types env hnd h).2.1
  constructor
  · intro hx τ hτ hu k hk
    obtain ⟨l, hl, rfl⟩ := List.mem_map.mp ((ht τ).mpr ⟨hτ, hu⟩)
    exact (hx l hl k).mp (((hn l hl).2 k).mpr (.inl hk))
  · intro hx l hl k
    obtain ⟨h1, h2⟩ := (ht l.type).mp (List.mem_map_of_mem hl)
    rw [(hn l hl).2 k]
    constructor
    · rintro (h3 | h3)
      · exact hx _ h1 h2 k h3
      · exact h3
    · exact .inr

/-- **C107** the first report, and the first after clearing the registry, names exactly the
unresolved targets.  (Missing: later reports, see `C107_names_fails`.) -/
theorem C107_names_partial (env : Env K Ty L Val) {tys : List Ty} (hnd : tys.Nodup) {e e' : Engine K Ty L Val} {b : Bool}
    {lines : List (Line K Ty)} (h : resolveReporting env tys e = (e', .ok (b, lines)))
    (hfresh : ∀ τ ∈ tys, (e.st τ).failed = ∅) :
    ∀ l ∈ lines, ∀ k, k ∈ l.names ↔ k ∈ (e.st l.type).targets ∧ Unfound env e l.type k :=
  (C107_exact_iff env hnd h).mpr fun τ hτ _ k hk => by rw [hfresh τ hτ] at hk; simp at hk

end engine

/-! ## concrete reports -/

/-- one target, 5, and a hard-coded source without it -/
def oneMissing : Engine Nat Unit Nat (fun _ => Nat) := registerTarget () 5 (registerHardCodedSource fresh)

/-- what the program has after the first attempt -/
def oneMissed : Engine Nat Unit Nat (fun _ => Nat) :=
  { fresh with
    st := fun _ => { reg := fun _ => none, targets := {5}, failed := {5}, resolveCalled := true, allResolved := false }
    hc := true }

/-- the user adds the missing default, and a target 8 that has none -/
def amended : Engine Nat Unit Nat (fun _ => Nat) := registerTarget () 8 (setHardCoded () [(5, 9)] oneMissed)

theorem sort58 : ({5, 8} : Finset Nat).sort (· ≤ ·) = [5, 8] :=
  (List.toFinset_sort (r := (· ≤ ·)) (l := [5, 8]) (by decide)).2 (by decide)

theorem oneMissing_report : resolveReporting (demo3 false) [()] oneMissing = (oneMissed, .ok (false, [⟨(), [5]⟩])) := by
  simp [resolveReporting, eachFrom, resolveCall, oneMissing, registerTarget, registerHardCodedSource, fresh, resolveType,
    Engine.slot, resolveLoop, lookup, Engine.setSlot, printCall, oneMissed]
  funext u
  simp

theorem amended_targets : (amended.st ()).targets = {5, 8} := by
  simp [amended, registerTarget, setHardCoded, oneMissed]
  decide

theorem amended_report : ∃ e', resolveReporting (demo3 false) [()] amended = (e', .ok (false, [⟨(), [5, 8]⟩])) ∧
    getValue () 5 e' = .ok 9 := by
  have ht := amended_targets
  simp [resolveReporting, eachFrom, resolveCall, resolveType, Engine.slot, ht, sort58, resolveLoop, lookup]
  simp [amended, registerTarget, setHardCoded, oneMissed, fresh, demo3, Engine.setSlot, printCall, getValue]
  rw [← sort58]
  congr 1

/-- one type, one unresolved target, one line -/
example : ([⟨(), [5]⟩] : List (Line Nat Unit)).map (·.type) = [()] ∧ 5 ∈ (oneMissing.st ()).targets ∧
    Unfound (demo3 false) oneMissing () 5 :=
  ⟨rfl, by simp [oneMissing, registerTarget], .inl rfl, .inr (by simp [oneMissing, registerTarget, registerHardCodedSource, fresh])⟩

/-- the first report is exact -/
example : ∀ k, k ∈ [5] ↔ k ∈ (oneMissing.st ()).targets ∧ Unfound (demo3 false) oneMissing () k :=
  C107_names_partial (demo3 false) (by simp) oneMissing_report
    (by simp [oneMissing, registerTarget, registerHardCodedSource, fresh]) ⟨(), [5]⟩ (by simp)

/-- **C107** failed names are never forgotten: a target that was missing, was then supplied, and is
resolved by the second attempt is still reported as unresolved by it -/
theorem C107_names_fails :
    ∃ (e1 e2 : Engine Nat Unit Nat (fun _ => Nat)),
      resolveReporting (demo3 false) [()] oneMissing = (e1, .ok (false, [⟨(), [5]⟩])) ∧
      resolveReporting (demo3 false) [()] (registerTarget () 8 (setHardCoded () [(5, 9)] e1)) =
        (e2, .ok (false, [⟨(), [5, 8]⟩])) ∧
      getValue () 5 e2 = .ok 9 := by
  obtain ⟨e2, h2, h3⟩ := amended_report
  exact ⟨oneMissed, e2, oneMissing_report, h2, h3⟩

end Verif.InputEngine
