import Verif.Dbc.Model

/-!
# C58, C75: the checks act exactly on failure; the options select what they do
-/

namespace Verif.Dbc

variable {S T : Type}

/-- the condition a check states, at program state `s` -/
def Check.cond (O : Ops T) (s : S) : Check S T → Bool
  | .insist c _ | .require c _ | .check c _ | .ensure c _ => (c s).1
  | .equal a b _ _ => O.eq (a s).1 (b s).1
  | .notEqual a b _ _ => O.ne (a s).1 (b s).1
  | .inOpenRange x mn mx _ => O.gt (x s).1 (mn s).1 && O.lt (x s).1 (mx s).1
  | .greaterThan x mn _ => O.gt (x s).1 (mn s).1
  | .greaterEqual x mn _ => O.ge (x s).1 (mn s).1
  | .lessThan x mx _ => O.lt (x s).1 (mx s).1
  | .oneOf x count _ => decide (0 < (count s).1 (x s).1)

/-- the operands change nothing -/
def Check.reads : Check S T → Prop
  | .insist c _ | .require c _ | .check c _ | .ensure c _ => c.reads
  | .equal a b _ _ | .notEqual a b _ _ => a.reads ∧ b.reads
  | .inOpenRange x mn mx _ => x.reads ∧ mn.reads ∧ mx.reads
  | .greaterThan x mn _ | .greaterEqual x mn _ => x.reads ∧ mn.reads
  | .lessThan x mx _ => x.reads ∧ mx.reads
  | .oneOf x count _ => x.reads ∧ count.reads

/-- the text of the first operand, or of the description -/
def Check.text : Check S T → String
  | .insist _ t | .require _ t | .check _ t | .ensure _ t => t
  | .equal _ _ t _ | .notEqual _ _ t _ => t
  | .inOpenRange _ _ _ t | .greaterThan _ _ t | .greaterEqual _ _ t | .lessThan _ _ t | .oneOf _ _ t => t

/-- `Insist` is on in every configuration -/
def Check.active (cfg : Cfg) : Check S T → Bool
  | .insist _ _ => true
  | _ => cfg.requireOn

/-- what an action does with a message, in words: throw it, append it to the stream and go on, or
just go on -/
def outcomeOf (a : Action) (msg : String) (w : World S) : Res S (Option Bool) :=
  match a with
  | .throwException => .logicError msg w
  | .notify => .ok (some false) ⟨w.prog, w.err ++ msg⟩
  | .doNothing => .ok (some false) w

theorem bind_def {α β : Type} (m : Exec S α) (f : α → Exec S β) (w : World S) :
    (m >>= f) w = (match m w with
      | .ok a w' => f a w'
      | .logicError e w' => .logicError e w' : Res S β) := rfl

theorem bind_eval {α β : Type} {e : Expr S α} (h : e.reads) (f : α → Exec S β) (w : World S) :
    (eval e >>= f) w = f (e w.prog).1 w := by
  show f (e w.prog).1 { w with prog := (e w.prog).2 } = _
  rw [h w.prog]

theorem assertf_true (t : String) (p : Place) (a : Action) : (assertf true t p a : Exec S Bool) = fun w => .ok true w := rfl
theorem assertfL_eq (c : Bool) (g : Unit → String) (p : Place) (a : Action) :
    (assertfL c g p a : Exec S Bool) = assertf c (g ()) p a := rfl

theorem bind_assertf (c : Bool) (t : String) (p : Place) (a : Action) (w : World S) :
    ((do return some (← assertf c t p a)) : Exec S (Option Bool)) w =
      if c then .ok (some true) w else outcomeOf a (buildMessage t p) w := by
  cases c <;> cases a <;> rfl

/-- C58: an active check whose condition holds returns true and does nothing else; one whose
condition fails runs the configured action once, with a message that names file, line, function
and the operand or description, and, unless that throws, returns false.  For all operands, states
and comparison operators, consistent or not -/
theorem C58_active (O : Ops T) (cfg : Cfg) (p : Place) (c : Check S T) (w : World S) (hr : c.reads) (ha : c.active cfg = true) :
    ∃ detail : String,
      expand O cfg p c w = (if c.cond O w.prog then .ok (some true) w
        else outcomeOf cfg.action
          (p.file ++ ":" ++ toString p.line ++ ":" ++ p.func ++ " assertion '" ++ (c.text ++ detail) ++ "' failed.\n") w) := by
  cases c with
  | insist c t =>
    refine ⟨"", ?_⟩
    rw [String.append_empty]
    exact (bind_eval hr _ w).trans (bind_assertf _ _ _ _ _)
  | require c t =>
    refine ⟨"", ?_⟩
    rw [String.append_empty]
    simp only [Check.active] at ha
    simp only [expand, ha, if_true]
    exact (bind_eval hr _ w).trans (bind_assertf _ _ _ _ _)
  | check c t =>
    refine ⟨"", ?_⟩
    rw [String.append_empty]
    simp only [Check.active] at ha
    simp only [expand, ha, if_true]
    exact (bind_eval hr _ w).trans (bind_assertf _ _ _ _ _)
  | ensure c t =>
    refine ⟨"", ?_⟩
    rw [String.append_empty]
    simp only [Check.active] at ha
    simp only [expand, ha, if_true]
    exact (bind_eval hr _ w).trans (bind_assertf _ _ _ _ _)
  | equal a b s t =>
    refine ⟨" != " ++ t, ?_⟩
    simp only [Check.active] at ha
    simp only [expand, ha, if_true]
    refine (bind_eval hr.1 _ w).trans ((bind_eval hr.2 _ w).trans ?_)
    rw [equalFunc, assertfL_eq, bind_assertf]
    simp only [Check.cond, Check.text, buildMessage, String.append_assoc]
  | notEqual a b s t =>
    refine ⟨" expected != " ++ t, ?_⟩
    simp only [Check.active] at ha
    simp only [expand, ha, if_true]
    refine (bind_eval hr.1 _ w).trans ((bind_eval hr.2 _ w).trans ?_)
    rw [notEqualFunc, assertfL_eq, bind_assertf]
    simp only [Check.cond, Check.text, buildMessage, String.append_assoc]
  | inOpenRange x mn mx t =>
    refine ⟨" (" ++ O.show_ (x w.prog).1 ++ ") was not in range (" ++ O.show_ (mn w.prog).1 ++ "," ++ O.show_ (mx w.prog).1 ++ ")", ?_⟩
    simp only [Check.active] at ha
    simp only [expand, ha, if_true]
    refine (bind_eval hr.1 _ w).trans ((bind_eval hr.2.1 _ w).trans ((bind_eval hr.2.2 _ w).trans ?_))
    rw [inOpenRangeFunc, assertfL_eq, bind_assertf]
    simp only [Check.cond, Check.text, buildMessage, String.append_assoc]
  | greaterThan x mn t =>
    refine ⟨" (" ++ O.show_ (x w.prog).1 ++ ") <= " ++ O.show_ (mn w.prog).1, ?_⟩
    simp only [Check.active] at ha
    simp only [expand, ha, if_true]
    refine (bind_eval hr.1 _ w).trans ((bind_eval hr.2 _ w).trans ?_)
    rw [greaterThanFunc, assertfL_eq, bind_assertf]
    simp only [Check.cond, Check.text, buildMessage, String.append_assoc]
  | greaterEqual x mn t =>
    refine ⟨" (" ++ O.show_ (x w.prog).1 ++ ") < " ++ O.show_ (mn w.prog).1, ?_⟩
    simp only [Check.active] at ha
    simp only [expand, ha, if_true]
    refine (bind_eval hr.1 _ w).trans ((bind_eval hr.2 _ w).trans ?_)
    rw [greaterEqualFunc, assertfL_eq, bind_assertf]
    simp only [Check.cond, Check.text, buildMessage, String.append_assoc]
  | lessThan x mx t =>
    refine ⟨" (" ++ O.show_ (x w.prog).1 ++ ") >= " ++ O.show_ (mx w.prog).1, ?_⟩
    simp only [Check.active] at ha
    simp only [expand, ha, if_true]
    refine (bind_eval hr.1 _ w).trans ((bind_eval hr.2 _ w).trans ?_)
    rw [lessThanFunc, assertfL_eq, bind_assertf]
    simp only [Check.cond, Check.text, buildMessage, String.append_assoc]
  | oneOf x count t =>
    refine ⟨" not in set", ?_⟩
    simp only [Check.active] at ha
    simp only [expand, ha, if_true]
    refine (bind_eval hr.1 _ w).trans ((bind_eval hr.2 _ w).trans ?_)
    rw [oneOfFunc, assertfL_eq, bind_assertf]
    simp only [Check.cond, Check.text, buildMessage, String.append_assoc]

/-- a failed `Insist` with nothing to do -/
example : ∃ detail : String, expand (S := Unit) (T := Nat) ⟨(· == ·), (· != ·), (· < ·), (· > ·), (· ≥ ·), toString⟩
    ⟨false, .throwException⟩ ⟨"f.cc", "main", 7⟩ (.insist (fun s => (false, s)) "n > 0") ⟨(), ""⟩ =
      outcomeOf .throwException ("f.cc:" ++ toString 7 ++ ":main assertion '" ++ ("n > 0" ++ detail) ++ "' failed.\n") ⟨(), ""⟩ := by
  obtain ⟨d, h⟩ := C58_active (S := Unit) (T := Nat) ⟨(· == ·), (· != ·), (· < ·), (· > ·), (· ≥ ·), toString⟩
    ⟨false, .throwException⟩ ⟨"f.cc", "main", 7⟩ (.insist (fun s => (false, s)) "n > 0") ⟨(), ""⟩ (fun _ => rfl) rfl
  exact ⟨d, h⟩

/-- C58: with checks off, each of the comparison checks still has the value of its condition and
nothing else happens.  Partial: not `OneOf` (see `C58_one_of_fails`), and the operands must change
nothing (see `C58_twice_fails`); `Require`, `Check` and `Ensure` vanish -/
theorem C58_off_partial (O : Ops T) (cfg : Cfg) (p : Place) (c : Check S T) (w : World S) (hr : c.reads) (ha : c.active cfg = false) :
    match c with
    | .insist _ _ => False
    | .require _ _ | .check _ _ | .ensure _ _ => expand O cfg p c w = .ok none w
    | .oneOf _ _ _ => expand O cfg p c w = .ok (some true) w
    | c => expand O cfg p c w = .ok (some (c.cond O w.prog)) w := by
  cases c with
  | insist c t => simp [Check.active] at ha
  | require c t => simp only [Check.active] at ha; simp only [expand, ha]; rfl
  | check c t => simp only [Check.active] at ha; simp only [expand, ha]; rfl
  | ensure c t => simp only [Check.active] at ha; simp only [expand, ha]; rfl
  | oneOf x count t => simp only [Check.active] at ha; simp only [expand, ha]; rfl
  | equal a b s t =>
    simp only [Check.active] at ha
    simp only [expand, ha]
    exact (bind_eval hr.1 _ w).trans (bind_eval hr.2 _ w)
  | notEqual a b s t =>
    simp only [Check.active] at ha
    simp only [expand, ha]
    exact (bind_eval hr.1 _ w).trans (bind_eval hr.2 _ w)
  | greaterThan a b s =>
    simp only [Check.active] at ha
    simp only [expand, ha]
    exact (bind_eval hr.1 _ w).trans (bind_eval hr.2 _ w)
  | greaterEqual a b s =>
    simp only [Check.active] at ha
    simp only [expand, ha]
    exact (bind_eval hr.1 _ w).trans (bind_eval hr.2 _ w)
  | lessThan a b s =>
    simp only [Check.active] at ha
    simp only [expand, ha]
    exact (bind_eval hr.1 _ w).trans (bind_eval hr.2 _ w)
  | inOpenRange x mn mx s =>
    simp only [Check.active] at ha
    simp only [expand, ha]
    refine (bind_eval hr.1 _ w).trans ((bind_eval hr.2.1 _ w).trans ?_)
    simp only [Check.cond]
    cases h : O.gt (x w.prog).1 (mn w.prog).1 with
    | false => rfl
    | true => exact (bind_eval hr.1 _ w).trans (bind_eval hr.2.2 _ w)

/-- a failed `Require` when the checks are off -/
example (O : Ops Nat) : expand (S := Unit) O ⟨false, .throwException⟩ ⟨"f.cc", "main", 7⟩
    (.require (fun s => (false, s)) "n > 0") ⟨(), ""⟩ = .ok none ⟨(), ""⟩ :=
  C58_off_partial O ⟨false, .throwException⟩ ⟨"f.cc", "main", 7⟩ (.require (fun s => (false, s)) "n > 0") ⟨(), ""⟩
    (fun _ => rfl) rfl

/-- C58: a run of checks whose operands change nothing goes through without any effect if all
active conditions hold, whatever the action; with the throwing action it goes through only if they
all hold -/
theorem C58_run (O : Ops T) (cfg : Cfg) (cs : List (Place × Check S T)) (w : World S) (hr : ∀ pc ∈ cs, pc.2.reads) :
    ((∀ pc ∈ cs, pc.2.active cfg = true → pc.2.cond O w.prog = true) → runAll O cfg cs w = .ok () w) ∧
    (cfg.action = .throwException →
      ((∃ w', runAll O cfg cs w = .ok () w') → ∀ pc ∈ cs, pc.2.active cfg = true → pc.2.cond O w.prog = true)) := by
  induction cs with
  | nil => exact ⟨fun _ => rfl, fun _ _ pc h => by simp at h⟩
  | cons pc cs ih =>
    obtain ⟨p, c⟩ := pc
    obtain ⟨ih1, ih2⟩ := ih (fun pc h => hr pc (List.mem_cons_of_mem _ h))
    have hc := hr _ List.mem_cons_self
    have hstep : runAll O cfg ((p, c) :: cs) w = (match expand O cfg p c w with
        | .ok _ w' => runAll O cfg cs w'
        | .logicError e w' => .logicError e w') := by rw [runAll, bind_def]; cases expand O cfg p c w <;> rfl
    have hinactive : c.active cfg = false → ∃ b, expand O cfg p c w = .ok b w := by
      intro h
      have := C58_off_partial O cfg p c w hc h
      cases c <;> first | exact ⟨_, this⟩ | exact absurd this id
    refine ⟨fun hall => ?_, fun hact ⟨w', hw⟩ => ?_⟩
    · have hthis : ∃ b, expand O cfg p c w = .ok b w := by
        cases ha : c.active cfg with
        | false => exact hinactive ha
        | true =>
          obtain ⟨d, hd⟩ := C58_active O cfg p c w hc ha
          have hcond := hall _ List.mem_cons_self ha
          simp only at hcond
          rw [hcond] at hd
          exact ⟨_, hd⟩
      obtain ⟨b, hb⟩ := hthis
      rw [hstep, hb]
      exact ih1 (fun pc h => hall pc (List.mem_cons_of_mem _ h))
    · rw [hstep] at hw
      have hfirst : (∃ b, expand O cfg p c w = .ok b w) ∧ (c.active cfg = true → c.cond O w.prog = true) := by
        cases ha : c.active cfg with
        | false => exact ⟨hinactive ha, fun h => by simp at h⟩
        | true =>
          obtain ⟨d, hd⟩ := C58_active O cfg p c w hc ha
          cases hcond : c.cond O w.prog with
          | true => rw [hcond] at hd; exact ⟨⟨_, hd⟩, fun _ => rfl⟩
          | false =>
            rw [hcond, hact] at hd
            simp only [outcomeOf, Bool.false_eq_true, if_false] at hd
            rw [hd] at hw
            simp at hw
      obtain ⟨⟨b, hb⟩, h1⟩ := hfirst
      rw [hb] at hw
      intro pc hpc
      rcases List.mem_cons.1 hpc with rfl | hpc
      · exact h1
      · exact ih2 hact ⟨w', hw⟩ pc hpc

/-- the second of two checks fails -/
example (O : Ops Nat) : ¬ ∃ w', runAll (S := Unit) O ⟨true, .throwException⟩
    [(⟨"f.cc", "main", 7⟩, .require (fun s => (true, s)) "a"), (⟨"f.cc", "main", 8⟩, .ensure (fun s => (false, s)) "b")]
    ⟨(), ""⟩ = .ok () w' := by
  intro h
  have := (C58_run (S := Unit) O ⟨true, .throwException⟩
    [(⟨"f.cc", "main", 7⟩, .require (fun s => (true, s)) "a"), (⟨"f.cc", "main", 8⟩, .ensure (fun s => (false, s)) "b")]
    ⟨(), ""⟩ (by intro pc hpc; simp at hpc; rcases hpc with rfl | rfl <;> exact fun _ => rfl)).2 rfl h
  exact absurd (this (⟨"f.cc", "main", 8⟩, .ensure (fun s => (false, s)) "b") (by simp) rfl) (by simp [Check.cond])

/-- operators on `Int` -/
def intOps : Ops Int :=
  ⟨fun a b => a == b, fun a b => a != b, fun a b => decide (a < b), fun a b => decide (b < a), fun a b => decide (b ≤ a), toString⟩

/-- C58 (violation): with checks off `OneOf` is true whatever the value, so a program that uses
its value as the condition takes another branch -/
theorem C58_one_of_fails :
    ∃ (c : Check Unit Int) (w : World Unit), c.reads ∧ c.cond intOps w.prog = false ∧
      expand intOps ⟨false, .notify⟩ ⟨"f.cc", "main", 1⟩ c w = .ok (some true) w ∧
      ∃ w', expand intOps ⟨true, .notify⟩ ⟨"f.cc", "main", 1⟩ c w = .ok (some false) w' :=
  ⟨.oneOf (fun s => (4, s)) (fun s => (fun _ => 0, s)) "x", ⟨(), ""⟩, ⟨fun _ => rfl, fun _ => rfl⟩, rfl, rfl, _, rfl⟩

/-- C58 (violation): with checks off the operand of `InOpenRange` is evaluated twice: for `++i`
with `i = 0` the check `0 < ++i < 2` holds when checks are on and fails when they are off, and
`i` ends up different -/
theorem C58_twice_fails :
    let x : Expr Int Int := fun i => (i + 1, i + 1)
    let c : Check Int Int := .inOpenRange x (fun s => (0, s)) (fun s => (2, s)) "++i"
    expand intOps ⟨true, .throwException⟩ ⟨"f.cc", "main", 1⟩ c ⟨0, ""⟩ = .ok (some true) ⟨1, ""⟩ ∧
    expand intOps ⟨false, .throwException⟩ ⟨"f.cc", "main", 1⟩ c ⟨0, ""⟩ = .ok (some false) ⟨2, ""⟩ :=
  ⟨rfl, rfl⟩

/-- C58 (violation): with checks off a condition with an effect is not evaluated at all -/
theorem C58_effect_fails :
    let c : Check Int Int := .require (fun i => (true, i + 1)) "step"
    expand intOps ⟨true, .throwException⟩ ⟨"f.cc", "main", 1⟩ c ⟨0, ""⟩ = .ok (some true) ⟨1, ""⟩ ∧
    expand intOps ⟨false, .throwException⟩ ⟨"f.cc", "main", 1⟩ c ⟨0, ""⟩ = .ok none ⟨0, ""⟩ :=
  ⟨rfl, rfl⟩

/-- a failing and a passing check -/
example : expand intOps ⟨true, .notify⟩ ⟨"f.cc", "main", 7⟩ (.greaterThan (fun s : Unit => (3, s)) (fun s => (5, s)) "n") ⟨(), "old\n"⟩ =
    .ok (some false) ⟨(), "old\nf.cc:7:main assertion 'n (3) <= 5' failed.\n"⟩ := by decide +kernel
example : expand intOps ⟨true, .throwException⟩ ⟨"f.cc", "main", 7⟩ (.greaterThan (fun s : Unit => (3, s)) (fun s => (5, s)) "n") ⟨(), ""⟩ =
    .logicError "f.cc:7:main assertion 'n (3) <= 5' failed.\n" ⟨(), ""⟩ := by decide +kernel
example : expand intOps ⟨true, .throwException⟩ ⟨"f.cc", "main", 7⟩ (.lessThan (fun s : Unit => (3, s)) (fun s => (5, s)) "n") ⟨(), ""⟩ =
    .ok (some true) ⟨(), ""⟩ := rfl

/-! ## C75: the options -/

/-- C75 (violation): no value of the two documented options has any effect: unless the user
defines other variables or macros by hand, checks are off and every action is to do nothing -/
theorem C75_options_fails (action require : String) :
    cfgOf (configHeader (cmakeVars action require (fun _ => none))) (fun _ => false) = ⟨false, .doNothing⟩ := by
  simp [cfgOf, configHeader, cmakeVars, cmakeTrue]

/-- so the configured behaviour is the documented one only for checks off and no action -/
theorem C75_documented (action require : String) :
    cfgOf (configHeader (cmakeVars action require (fun _ => none))) (fun _ => false) = documented action require ↔
      cmakeTrue (some require) = false ∧ action ≠ "throw" ∧ action ≠ "notify" := by
  rw [C75_options_fails]
  simp only [documented, Cfg.mk.injEq]
  constructor
  · rintro ⟨h1, h2⟩
    refine ⟨h1.symm, ?_, ?_⟩ <;> rintro rfl <;> simp at h2
  · rintro ⟨h1, h2, h3⟩
    exact ⟨h1.symm, by simp [h2, h3]⟩

/-- the defaults (`throw`, `ON`) are not honoured -/
example : documented "throw" "ON" = ⟨true, .throwException⟩ := by decide
example : cfgOf (configHeader (cmakeVars "throw" "ON" (fun _ => none))) (fun _ => false) ≠ documented "throw" "ON" := by decide

/-- C75 (violation): so with the default build even `Insist`, "always on", passes over a failed
condition without a trace -/
theorem C75_insist_fails (O : Ops T) (p : Place) (text : String) (w : World S) :
    expand O (cfgOf (configHeader (cmakeVars "throw" "ON" (fun _ => none))) (fun _ => false)) p
      (.insist (fun s => (false, s)) text) w = .ok (some false) w := by
  rw [C75_options_fails]; rfl

/-- C75, what does work: the macros can be defined on the command line (as the tests do), or the
two action macros through CMake variables of their own names.  Partial: not through the documented
options -/
theorem C75_macros_partial (action require : String) (user : String → Option String) (cmdline : String → Bool) :
    let cfg := cfgOf (configHeader (cmakeVars action require user)) cmdline
    (cfg.requireOn = true ↔ cmdline "RISTRA_REQUIRE_ON" = true) ∧
    (cfg.action = .throwException ↔ cmdline "RISTRA_DBC_THROW" = true ∨ cmakeTrue (user "RISTRA_DBC_THROW") = true) ∧
    (cfg.action = .notify ↔ (cmdline "RISTRA_DBC_NOTIFY" = true ∨ cmakeTrue (user "RISTRA_DBC_NOTIFY") = true) ∧
      ¬ (cmdline "RISTRA_DBC_THROW" = true ∨ cmakeTrue (user "RISTRA_DBC_THROW") = true)) := by
  have h1 : configHeader (cmakeVars action require user) "RISTRA_REQUIRE_ON" = false := by
    simp [configHeader]
  have h2 : configHeader (cmakeVars action require user) "RISTRA_DBC_THROW" = cmakeTrue (user "RISTRA_DBC_THROW") := by
    simp [configHeader, cmakeVars]
  have h3 : configHeader (cmakeVars action require user) "RISTRA_DBC_NOTIFY" = cmakeTrue (user "RISTRA_DBC_NOTIFY") := by
    simp [configHeader, cmakeVars]
  simp only [cfgOf, h1, h2, h3]
  generalize cmdline "RISTRA_REQUIRE_ON" = b1
  generalize cmdline "RISTRA_DBC_THROW" = b2
  generalize cmdline "RISTRA_DBC_NOTIFY" = b3
  generalize cmakeTrue (user "RISTRA_DBC_THROW") = b4
  generalize cmakeTrue (user "RISTRA_DBC_NOTIFY") = b5
  revert b1 b2 b3 b4 b5
  decide

example : cfgOf (fun _ => false) (fun m => m == "RISTRA_REQUIRE_ON" || m == "RISTRA_DBC_NOTIFY") = ⟨true, .notify⟩ := by decide

end Verif.Dbc
