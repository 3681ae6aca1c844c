import Mathlib.Data.String.Basic
import Mathlib.Data.List.Induction
import Verif.Arguments.Model

/-!
# C85: registering command line options

Registrations happen in the initialisers of global variables, in an order that depends on how
the program is linked.
-/

namespace Verif.Arguments

variable {K : Type} [LinearOrder K]

/-- one registration -/
inductive Event (K : Type) where
  | group (k : K) (title : String)
  | argument (k : K) (o : Opt)
deriving DecidableEq

/-- the name a registration is for -/
def Event.key : Event K → K
  | .group k _ => k
  | .argument k _ => k

/-- the option a registration adds, if it is one -/
def Event.option? : Event K → Option Opt
  | .group _ _ => none
  | .argument _ o => some o

/-- one registration -/
def step (d : Descs K) : Event K → Descs K
  | .group k t => (registerGroup d k t).1
  | .argument k o => (registerArgument d k o).1

/-- all registrations, from the empty table -/
def replay (log : List (Event K)) : Descs K := log.foldl step []

/-- the keys of the table in strictly increasing order -/
def Sorted (d : Descs K) : Prop := d.Pairwise (fun a b => a.1 < b.1)

/-- the group registered under a key -/
def Has (d : Descs K) (k : K) (g : Group) : Prop := (k, g) ∈ d

theorem mem_upsert_key (k : K) (f : Option Group → Group) (d : Descs K) (x : K × Group) (h : x ∈ upsert k f d) :
    x.1 = k ∨ x ∈ d := by
  induction d with
  | nil => simp only [upsert, List.mem_singleton] at h; exact Or.inl (by rw [h])
  | cons y r ih =>
    obtain ⟨k', g⟩ := y
    simp only [upsert] at h
    split at h
    · rcases List.mem_cons.1 h with rfl | h
      · exact Or.inl rfl
      · exact Or.inr h
    · split at h
      · rename_i _ e
        rcases List.mem_cons.1 h with rfl | h
        · exact Or.inl e.symm
        · exact Or.inr (List.mem_cons_of_mem _ h)
      · rcases List.mem_cons.1 h with rfl | h
        · exact Or.inr List.mem_cons_self
        · rcases ih h with h | h
          · exact Or.inl h
          · exact Or.inr (List.mem_cons_of_mem _ h)

theorem upsert_sorted (k : K) (f : Option Group → Group) (d : Descs K) (h : Sorted d) : Sorted (upsert k f d) := by
  induction d with
  | nil => simp [upsert, Sorted]
  | cons y r ih =>
    obtain ⟨k', g⟩ := y
    have h1 := (List.pairwise_cons.1 h).1
    have h2 := (List.pairwise_cons.1 h).2
    simp only [upsert]
    split
    · rename_i hlt
      refine List.pairwise_cons.2 ⟨fun x hx => ?_, h⟩
      rcases List.mem_cons.1 hx with rfl | hx
      · exact hlt
      · exact lt_trans hlt (h1 x hx)
    · split
      · exact List.pairwise_cons.2 ⟨fun x hx => h1 x hx, h2⟩
      · rename_i hnl hne
        refine List.pairwise_cons.2 ⟨fun x hx => ?_, ih h2⟩
        rcases mem_upsert_key k f r x hx with e | hx
        · rw [e]; exact lt_of_le_of_ne (not_lt.1 hnl) (fun e => hne e.symm)
        · exact h1 x hx

theorem sorted_unique (d : Descs K) (h : Sorted d) (k : K) (g g' : Group) (h1 : Has d k g) (h2 : Has d k g') : g = g' := by
  induction d with
  | nil => cases h1
  | cons y r ih =>
    have a := (List.pairwise_cons.1 h).1
    rcases List.mem_cons.1 h1 with e1 | h1 <;> rcases List.mem_cons.1 h2 with e2 | h2
    · rw [← e1] at e2; exact (Prod.mk.inj e2).2.symm
    · have := a _ h2; rw [← e1] at this; exact absurd this (lt_irrefl _)
    · have := a _ h1; rw [← e2] at this; exact absurd this (lt_irrefl _)
    · exact ih (List.pairwise_cons.1 h).2 h1 h2

/-- an update at one key: the other keys keep their groups -/
theorem has_upsert_ne (k : K) (f : Option Group → Group) (d : Descs K) (k' : K) (g : Group) (hne : k' ≠ k) :
    Has (upsert k f d) k' g ↔ Has d k' g := by
  induction d with
  | nil => simp [Has, upsert, hne]
  | cons y r ih =>
    obtain ⟨k1, g1⟩ := y
    simp only [Has, upsert] at ih ⊢
    split
    · simp [hne]
    · split
      · rename_i _ e
        subst e
        simp [hne]
      · rw [List.mem_cons, List.mem_cons, ih]

/-- an update at one key: the new group there -/
theorem has_upsert_self (k : K) (f : Option Group → Group) (d : Descs K) (h : Sorted d) (g : Group) :
    Has (upsert k f d) k g ↔ (∃ g0, Has d k g0 ∧ g = f (some g0)) ∨ ((∀ g0, ¬ Has d k g0) ∧ g = f none) := by
  induction d with
  | nil => simp [Has, upsert]
  | cons y r ih =>
    obtain ⟨k1, g1⟩ := y
    have h1 := (List.pairwise_cons.1 h).1
    have h2 := (List.pairwise_cons.1 h).2
    have ih := ih h2
    simp only [Has, upsert] at ih ⊢
    by_cases hlt : k < k1
    · have hno : ∀ g0, ¬ (k, g0) ∈ (k1, g1) :: r := by
        intro g0 hm
        rcases List.mem_cons.1 hm with e | hm
        · rw [(Prod.mk.inj e).1] at hlt; exact lt_irrefl _ hlt
        · exact lt_asymm hlt (h1 _ hm)
      rw [if_pos hlt]
      constructor
      · intro hm
        rcases List.mem_cons.1 hm with e | hm
        · exact Or.inr ⟨hno, (Prod.mk.inj e).2⟩
        · exact absurd hm (hno g)
      · rintro (⟨g0, hm, _⟩ | ⟨_, e⟩)
        · exact absurd hm (hno g0)
        · rw [e]; exact List.mem_cons_self
    · rw [if_neg hlt]
      by_cases he : k = k1
      · subst he
        have hno : ∀ g0, ¬ (k, g0) ∈ r := fun g0 hm => lt_irrefl _ (h1 (k, g0) hm)
        rw [if_pos rfl]
        constructor
        · intro hm
          rcases List.mem_cons.1 hm with e | hm
          · exact Or.inl ⟨g1, List.mem_cons_self, (Prod.mk.inj e).2⟩
          · exact absurd hm (hno g)
        · rintro (⟨g0, hm, e⟩ | ⟨hn, _⟩)
          · rcases List.mem_cons.1 hm with e' | hm
            · rw [e, (Prod.mk.inj e').2]; exact List.mem_cons_self
            · exact absurd hm (hno g0)
          · exact absurd List.mem_cons_self (hn g1)
      · rw [if_neg he]
        have hs : ∀ g0 : Group, ((k, g0) ∈ (k1, g1) :: r ↔ (k, g0) ∈ r) := by
          intro g0
          rw [List.mem_cons]
          constructor
          · rintro (e | hm)
            · exact absurd (Prod.mk.inj e).1 he
            · exact hm
          · exact Or.inr
        have hu : (k, g) ∈ (k1, g1) :: upsert k f r ↔ (k, g) ∈ upsert k f r := by
          rw [List.mem_cons]
          constructor
          · rintro (e | hm)
            · exact absurd (Prod.mk.inj e).1 he
            · exact hm
          · exact Or.inr
        rw [hu, ih]
        simp only [hs]

theorem replay_sorted (log : List (Event K)) : Sorted (replay log) := by
  have : ∀ (l : List (Event K)) (d : Descs K), Sorted d → Sorted (l.foldl step d) := by
    intro l
    induction l with
    | nil => exact fun d h => h
    | cons e l ih =>
      intro d h
      refine ih _ ?_
      cases e <;> exact upsert_sorted _ _ _ h
  exact this log [] List.Pairwise.nil

/-- what a sequence of registrations under one key should give: the caption of the first if
that is a group, and the arguments in order -/
def expected : List (Event K) → Option Group
  | [] => none
  | .group k t :: l => some ⟨t, (Event.group k t :: l).filterMap Event.option?⟩
  | .argument k o :: l => some ⟨"", (Event.argument k o :: l).filterMap Event.option?⟩

theorem expected_snoc (l : List (Event K)) (e : Event K) :
    expected (l ++ [e]) = match expected l with
      | none => (match e with
        | .group _ t => some ⟨t, []⟩
        | .argument _ o => some ⟨"", [o]⟩)
      | some g => some { g with options := g.options ++ (match e with
        | .group _ _ => []
        | .argument _ o => [o]) } := by
  cases l with
  | nil => cases e <;> rfl
  | cons x l =>
    cases x <;> cases e <;> simp [expected, Event.option?, List.filterMap_append, List.filterMap_cons]

theorem replay_snoc (log : List (Event K)) (e : Event K) : replay (log ++ [e]) = step (replay log) e := by
  simp [replay, List.foldl_append]

theorem has_replay (log : List (Event K)) (k : K) (g : Group) :
    Has (replay log) k g ↔ expected (log.filter (fun e => e.key = k)) = some g := by
  induction log using List.reverseRecOn generalizing k g with
  | nil => simp [replay, Has, expected]
  | append_singleton log e ih =>
    rw [replay_snoc, List.filter_append]
    by_cases hk : e.key = k
    · have hs := replay_sorted log
      have hf : List.filter (fun e => decide (e.key = k)) [e] = [e] := by simp [hk]
      rw [hf, expected_snoc]
      cases he : expected (log.filter (fun e => e.key = k)) with
      | none =>
        have hno : ∀ g0, ¬ Has (replay log) k g0 := by
          intro g0 h
          rw [ih, he] at h
          cases h
        cases e with
        | group k1 t =>
          have : k1 = k := hk
          subst this
          simp only [step, registerGroup]
          rw [has_upsert_self _ _ _ hs]
          constructor
          · rintro (⟨g0, h, _⟩ | ⟨_, e⟩)
            · exact absurd h (hno g0)
            · rw [e]
          · intro e
            exact Or.inr ⟨hno, (Option.some.inj e).symm⟩
        | argument k1 o =>
          have : k1 = k := hk
          subst this
          simp only [step, registerArgument]
          rw [has_upsert_self _ _ _ hs]
          constructor
          · rintro (⟨g0, h, _⟩ | ⟨_, e⟩)
            · exact absurd h (hno g0)
            · rw [e]
          · intro e
            exact Or.inr ⟨hno, (Option.some.inj e).symm⟩
      | some g1 =>
        have hyes : Has (replay log) k g1 := (ih k g1).2 he
        cases e with
        | group k1 t =>
          have : k1 = k := hk
          subst this
          simp only [step, registerGroup]
          rw [has_upsert_self _ _ _ hs]
          constructor
          · rintro (⟨g0, h, e⟩ | ⟨hn, _⟩)
            · rw [e, sorted_unique _ hs _ _ _ h hyes]; simp
            · exact absurd hyes (hn g1)
          · intro e
            refine Or.inl ⟨g1, hyes, ?_⟩
            rw [← Option.some.inj e]; simp
        | argument k1 o =>
          have : k1 = k := hk
          subst this
          simp only [step, registerArgument]
          rw [has_upsert_self _ _ _ hs]
          constructor
          · rintro (⟨g0, h, e⟩ | ⟨hn, _⟩)
            · rw [e, sorted_unique _ hs _ _ _ h hyes]
            · exact absurd hyes (hn g1)
          · intro e
            exact Or.inl ⟨g1, hyes, (Option.some.inj e).symm⟩
    · have hf : List.filter (fun e => decide (e.key = k)) [e] = [] := by simp [hk]
      rw [hf, List.append_nil, ← ih]
      cases e <;> exact has_upsert_ne _ _ _ _ _ (fun h => hk h.symm)

/-- **C85** (options).  After any sequence of registrations the groups are in strictly
increasing order of their keys; a key has a group exactly when something was registered under
it, and the group's options are the arguments registered under that key, all of them, in
the order of their registration. -/
theorem C85_options (log : List (Event K)) :
    (replay log).Pairwise (fun a b => a.1 < b.1) ∧
    (∀ k, (∃ g, (k, g) ∈ replay log) ↔ ∃ e ∈ log, e.key = k) ∧
    (∀ k g, (k, g) ∈ replay log →
      g.options = (log.filter (fun e => e.key = k)).filterMap Event.option?) := by
  refine ⟨replay_sorted log, fun k => ?_, fun k g h => ?_⟩
  · constructor
    · rintro ⟨g, h⟩
      have := (has_replay log k g).1 h
      cases hl : log.filter (fun e => e.key = k) with
      | nil => rw [hl] at this; cases this
      | cons e l =>
        have hm : e ∈ log.filter (fun e => e.key = k) := by rw [hl]; exact List.mem_cons_self
        have hm := List.mem_filter.1 hm
        exact ⟨e, hm.1, by simpa using hm.2⟩
    · rintro ⟨e, hm, he⟩
      cases hl : log.filter (fun e => e.key = k) with
      | nil =>
        have hm : e ∈ log.filter (fun e => e.key = k) := List.mem_filter.2 ⟨hm, by simpa using he⟩
        rw [hl] at hm
        cases hm
      | cons x l =>
        cases hx : expected (x :: l) with
        | none => cases x <;> cases hx
        | some g => exact ⟨g, (has_replay log k g).2 (by rw [hl, hx])⟩
  · have := (has_replay log k g).1 h
    cases hl : log.filter (fun e => e.key = k) with
    | nil => rw [hl] at this; cases this
    | cons x l =>
      rw [hl] at this
      cases x <;> rw [← Option.some.inj this]

/-- **C85** (order).  The table, and so the options offered and the help text, does not depend
on the order in which different groups are registered: two logs with the same registrations
under every key, in the same order under each key, give the same table. -/
theorem C85_order (l1 l2 : List (Event K))
    (h : ∀ k, l1.filter (fun e => e.key = k) = l2.filter (fun e => e.key = k)) : replay l1 = replay l2 := by
  have hm : ∀ x : K × Group, x ∈ replay l1 ↔ x ∈ replay l2 := by
    rintro ⟨k, g⟩
    have h1 := has_replay l1 k g
    have h2 := has_replay l2 k g
    rw [h k] at h1
    exact h1.trans h2.symm
  have key : ∀ (a b : Descs K), Sorted a → Sorted b → (∀ x, x ∈ a ↔ x ∈ b) → a = b := by
    intro a
    induction a with
    | nil =>
      intro b _ _ h
      cases b with
      | nil => rfl
      | cons y b => exact absurd ((h y).2 List.mem_cons_self) (by simp)
    | cons x a ih =>
      intro b ha hb h
      cases b with
      | nil => exact absurd ((h x).1 List.mem_cons_self) (by simp)
      | cons y b =>
        have ha1 := (List.pairwise_cons.1 ha).1
        have hb1 := (List.pairwise_cons.1 hb).1
        have hxy : x = y := by
          rcases List.mem_cons.1 ((h x).1 List.mem_cons_self) with e | hx
          · exact e
          · rcases List.mem_cons.1 ((h y).2 List.mem_cons_self) with e | hy
            · exact e.symm
            · exact absurd (ha1 y hy) (lt_asymm (hb1 x hx))
        subst hxy
        rw [ih b (List.pairwise_cons.1 ha).2 (List.pairwise_cons.1 hb).2]
        intro z
        constructor
        · intro hz
          rcases List.mem_cons.1 ((h z).1 (List.mem_cons_of_mem _ hz)) with e | hz'
          · rw [e] at hz; exact absurd (ha1 _ hz) (lt_irrefl _)
          · exact hz'
        · intro hz
          rcases List.mem_cons.1 ((h z).2 (List.mem_cons_of_mem _ hz)) with e | hz'
          · rw [e] at hz; exact absurd (hb1 _ hz) (lt_irrefl _)
          · exact hz'
  exact key _ _ (replay_sorted l1) (replay_sorted l2) hm

/-- two groups, registered in either order -/
example : replay [.group "mesh" "Mesh", .group "io" "Output", .argument "io" ⟨"out", "file", true⟩]
    = replay [.group "io" "Output", .group "mesh" "Mesh", .argument "io" ⟨"out", "file", true⟩] := by
  refine C85_order _ _ fun k => ?_
  by_cases h1 : "mesh" = k <;> by_cases h2 : "io" = k <;> simp_all [Event.key]
  subst h1; simp at h2

/-- **C85** (captions) as far as it holds: a group registered before everything else under its
key keeps its caption through all later registrations.  (Missing: a group registered after an
argument of the same key, and a second group, see below.) -/
theorem C85_caption_partial (log1 log2 : List (Event K)) (k : K) (t : String) (g : Group)
    (hfirst : ∀ e ∈ log1, e.key ≠ k) (h : (k, g) ∈ replay (log1 ++ .group k t :: log2)) : g.title = t := by
  have := (has_replay _ k g).1 h
  have h1 : log1.filter (fun e => e.key = k) = [] := by
    rw [List.filter_eq_nil_iff]
    intro e he
    simpa using hfirst e he
  rw [List.filter_append, h1, List.nil_append, List.filter_cons_of_pos (by simp [Event.key])] at this
  rw [← Option.some.inj this]

/-- a group announced after another group's option -/
example (g : Group) (h : ("mesh", g) ∈ replay ([.argument "io" ⟨"out", "file", true⟩] ++
    .group "mesh" "Mesh" :: [.argument "mesh" ⟨"dims", "", true⟩])) : g.title = "Mesh" :=
  C85_caption_partial _ _ _ _ _ (by simp [Event.key]) h

/-- **C85 fails** for captions: an argument registered under a key before its group (for
instance by another source file initialised earlier) takes away the caption, for good: the
group keeps the empty caption whatever is registered afterwards, although `register_group`
answers `true`. -/
theorem C85_caption_lost_fails (log1 log2 : List (Event K)) (k : K) (o : Opt) (t : String) (ht : t ≠ "")
    (hfirst : ∀ e ∈ log1, e.key ≠ k) :
    (registerGroup (replay (log1 ++ [.argument k o])) k t).2 = true ∧
    ∀ g, (k, g) ∈ replay (log1 ++ .argument k o :: .group k t :: log2) → g.title = "" ∧ g.title ≠ t := by
  refine ⟨rfl, fun g h => ?_⟩
  have := (has_replay _ k g).1 h
  have h1 : log1.filter (fun e => e.key = k) = [] := by
    rw [List.filter_eq_nil_iff]
    intro e he
    simpa using hfirst e he
  rw [List.filter_append, h1, List.nil_append, List.filter_cons_of_pos (by simp [Event.key])] at this
  rw [← Option.some.inj this]
  exact ⟨rfl, fun e => ht e.symm⟩

/-- the option first, the caption later -/
example (g : Group) (h : ("mesh", g) ∈ replay ([] ++ .argument "mesh" ⟨"dims", "", true⟩ :: .group "mesh" "Mesh" :: [])) :
    g.title = "" :=
  ((C85_caption_lost_fails [] [] "mesh" ⟨"dims", "", true⟩ "Mesh" (by simp) (by simp)).2 g h).1

/-- **C85** (captions), exactly: the caption of a group is the one given by the first registration
under its key, and empty if that was an argument.  So a caption registered is shown exactly when
it came first under its key or happens to be that first caption (or empty after an argument). -/
theorem C85_caption_iff (log1 log2 : List (Event K)) (e : Event K) (g : Group)
    (hfirst : ∀ e' ∈ log1, e'.key ≠ e.key) (h : (e.key, g) ∈ replay (log1 ++ e :: log2)) (t : String) :
    g.title = t ↔ (∃ k, e = .group k t) ∨ (∃ k o, e = .argument k o) ∧ t = "" := by
  have := (has_replay _ e.key g).1 h
  have h1 : log1.filter (fun e' => e'.key = e.key) = [] := by
    rw [List.filter_eq_nil_iff]
    intro e he
    simpa using hfirst e he
  rw [List.filter_append, h1, List.nil_append, List.filter_cons_of_pos (by simp)] at this
  cases e with
  | group k t' =>
    rw [← Option.some.inj this]
    simp
  | argument k o =>
    rw [← Option.some.inj this]
    simp [eq_comm]

/-- an option first, then a caption: not shown -/
example (g : Group) (h : ("mesh", g) ∈ replay ([.group "io" "Output"] ++ .argument "mesh" ⟨"dims", "", true⟩ ::
    [.group "mesh" "Mesh"])) : g.title ≠ "Mesh" := by
  intro e
  have := (C85_caption_iff [.group "io" "Output"] [.group "mesh" "Mesh"] (.argument "mesh" ⟨"dims", "", true⟩) g
    (by simp [Event.key]) h "Mesh").1 e
  simp at this

/-- **C85 fails** for a second caption: registering a group again under the same key is
ignored, and the answer is `true` all the same. -/
theorem C85_second_group_fails (log : List (Event K)) (k : K) (t : String) (h : ∃ e ∈ log, e.key = k) :
    registerGroup (replay log) k t = (replay log, true) := by
  obtain ⟨g, hg⟩ := ((C85_options log).2.1 k).2 h
  have : replay (log ++ [.group k t]) = (registerGroup (replay log) k t).1 := by rw [replay_snoc]; rfl
  have hs := replay_sorted log
  have key : ∀ (d : Descs K), Sorted d → (k, g) ∈ d →
      upsert k (fun | none => ⟨t, []⟩ | some g => g) d = d := by
    intro d
    induction d with
    | nil => intro _ h; cases h
    | cons y r ih =>
      obtain ⟨k1, g1⟩ := y
      intro hs hm
      have a := (List.pairwise_cons.1 hs).1
      simp only [upsert]
      rcases List.mem_cons.1 hm with e | hm
      · obtain ⟨rfl, rfl⟩ := Prod.mk.inj e
        simp
      · have hlt : k1 < k := a _ hm
        rw [if_neg (lt_asymm hlt), if_neg (ne_of_gt hlt), ih (List.pairwise_cons.1 hs).2 hm]
  exact Prod.ext (key _ hs hg) rfl

/-- the second caption is dropped -/
example : registerGroup (replay [.group "mesh" "Mesh"]) "mesh" "Mesh options" = (replay [.group "mesh" "Mesh"], true) :=
  C85_second_group_fails _ _ _ ⟨_, List.mem_singleton.2 rfl, rfl⟩

variable {V : Type}

/-- **C85** (processing).  The parser sees every registered group and the whole command line.
A complaint of the parser sets the error flag and, if printing is on, the usage goes to the
error stream with the message; success leaves the flag unset and prints the usage exactly when
help was asked for and printing is on; the program name is kept. -/
theorem C85_process (parser : List Group → List String → Parsed V) (hasHelp : V → Bool) (d : Descs K)
    (prog : String) (args : List String) (print : Bool) (r : Result V)
    (h : processArguments parser hasHelp d (prog :: args) print = .ok r) :
    r.program = prog ∧
    (r.error = true ↔ ∃ vm what, parser (d.map Prod.snd) (prog :: args) = .poError vm what) ∧
    (r.error = false → parser (d.map Prod.snd) (prog :: args) = .ok r.vm ∧
      (r.printed = [.usage prog (d.map Prod.snd)] ↔ hasHelp r.vm = true ∧ print = true)) ∧
    (print = false → r.printed = []) ∧
    (r.error = true → print = true → ∃ what, r.printed = [.usageError what prog (d.map Prod.snd)]) := by
  simp only [processArguments, cmdline] at h
  cases hp : parser (d.map Prod.snd) (prog :: args) with
  | ok vm =>
    rw [hp] at h
    obtain rfl := Outcome.ok.inj h
    refine ⟨rfl, by simp, fun _ => ⟨rfl, ?_⟩, fun e => by simp [e], fun e => by cases e⟩
    cases hh : hasHelp vm <;> cases print <;> simp [hh]
  | poError vm what =>
    rw [hp] at h
    obtain rfl := Outcome.ok.inj h
    exact ⟨rfl, by simp, (fun e => by cases e), (fun e => by simp [e]), fun _ e => ⟨what, by simp [e]⟩⟩
  | other k => rw [hp] at h; cases h

/-- **C85** (values).  A variable that was not given reads as the default; one that was given
reads as its value when asked for at its type, whatever the default; asked for at another type
it throws. -/
theorem C85_values {T : Type} [DecidableEq T] {Val : T → Type} (vm : Vars T Val) (name : String) (t : T) (dflt : Val t) :
    (count vm name = 0 → asT vm name t dflt = .ok dflt) ∧
    (∀ v, vm name = some ⟨t, v⟩ → count vm name = 1 ∧ asT vm name t dflt = .ok v) ∧
    (∀ t' v, vm name = some ⟨t', v⟩ → t' ≠ t → asT vm name t dflt = .throws "bad_any_cast") := by
  refine ⟨fun h => ?_, fun v h => ?_, fun t' v h hne => ?_⟩
  · cases hv : vm name with
    | none => simp [asT, hv]
    | some x => simp [count, hv] at h
  · simp [count, asT, h]
  · simp [asT, h, hne]

/-- three registrations in two groups: the second group's caption comes too late -/
example : replay [.group "mesh" "Mesh options", .argument "io" ⟨"out", "file", true⟩,
      .argument "mesh" ⟨"dims", "dimensions", true⟩, .group "io" "Output options", .argument "mesh" ⟨"help", "", false⟩]
    = [("io", ⟨"", [⟨"out", "file", true⟩]⟩),
       ("mesh", ⟨"Mesh options", [⟨"dims", "dimensions", true⟩, ⟨"help", "", false⟩]⟩)] := by
  decide

/-- a help request is answered -/
example : processArguments (V := Bool) (fun _ a => .ok (a.contains "--help")) id
    ([("mesh", ⟨"Mesh", []⟩)] : Descs String) ["prog", "--help"] true
    = .ok ⟨true, false, [.usage "prog" [⟨"Mesh", []⟩]], "prog"⟩ := by
  simp [processArguments, cmdline]

end Verif.Arguments
