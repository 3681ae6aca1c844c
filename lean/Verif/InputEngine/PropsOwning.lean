import Verif.InputEngine.ByTuple
import Mathlib.Data.List.Nodup
import Mathlib.Data.List.Perm.Basic

/-!
# C108: the engine owns the sources registered with it; C70: groups, and parameters of other types
-/

namespace Verif.InputEngine

section
variable {Own : Type} [DecidableEq Own]

/-- the sources registered by a step -/
def Step.given : Step Own → List Nat
  | .register _ (some p) => [p]
  | _ => []

/-- all sources registered by a program, in order, with repetitions -/
def registered (ss : List (Step Own)) : List Nat := ss.flatMap Step.given

/-- the owner a step is about -/
def Step.owner : Step Own → Own
  | .register o _ => o
  | .destroy o => o

/-- what the last step about an owner has left with it -/
def lastGiven (o : Own) (ss : List (Step Own)) : Option Nat :=
  ss.foldl (fun cur s => if s.owner = o then s.given.head? else cur) none

omit [DecidableEq Own] in
theorem given_head (s : Step Own) : s.given = s.given.head?.toList := by
  rcases s with ⟨o, _ | p⟩ | o <;> rfl

theorem run_eq (s : Step Own) (h : Heap Own) : s.run h = reset s.owner s.given.head? h := by
  rcases s with ⟨o, _ | p⟩ | o <;> rfl

theorem reset_holds {o : Own} {p : Option Nat} {h h' : Heap Own} (hr : reset o p h = .ok h') :
    h'.holds = Function.update h.holds o p := by
  rw [reset] at hr
  cases hq : h.holds o with
  | none => simp only [hq, Outcome.ok.injEq] at hr; rw [← hr]
  | some q =>
    simp only [hq] at hr
    split at hr
    · cases hr
    · simp only [Outcome.ok.injEq] at hr; rw [← hr]

theorem runSteps_holds (ss : List (Step Own)) (h h' : Heap Own) (hr : runSteps ss h = .ok h') (o : Own) :
    h'.holds o = ss.foldl (fun cur s => if s.owner = o then s.given.head? else cur) (h.holds o) := by
  induction ss generalizing h with
  | nil => simp only [runSteps, Outcome.ok.injEq] at hr; rw [← hr]; rfl
  | cons s ss ih =>
    rw [runSteps] at hr
    cases h1 : s.run h with
    | ok h1' =>
      rw [h1] at hr
      rw [ih h1' hr, List.foldl_cons]
      rw [run_eq] at h1
      rw [reset_holds h1]
      by_cases ho : s.owner = o
      · subst ho; simp
      · simp [ho, Ne.symm ho]
    | _ => rw [h1] at hr; cases hr

/-- what some owners hold -/
def held (os : List Own) (h : Heap Own) : List Nat := os.filterMap h.holds

theorem held_update {os : List Own} (hnd : os.Nodup) {o : Own} (ho : o ∈ os) (f : Own → Option Nat) (p : Option Nat) :
    (os.filterMap (Function.update f o p) ++ (f o).toList).Perm (p.toList ++ os.filterMap f) := by
  induction os with
  | nil => simp at ho
  | cons a os ih =>
    obtain ⟨ha, hnd'⟩ := List.nodup_cons.mp hnd
    by_cases h : a = o
    · subst h
      have hrest : os.filterMap (Function.update f a p) = os.filterMap f :=
        List.filterMap_congr fun x hx => by
          have : x ≠ a := by rintro rfl; exact ha hx
          simp [this]
      have e1 : (a :: os).filterMap (Function.update f a p) = p.toList ++ os.filterMap f := by
        rw [List.filterMap_cons, hrest]; cases p <;> simp
      have e2 : (a :: os).filterMap f = (f a).toList ++ os.filterMap f := by
        rw [List.filterMap_cons]; cases f a <;> simp
      rw [e1, e2, List.append_assoc]
      exact List.Perm.append_left _ List.perm_append_comm
    · have ho' : o ∈ os := by
        rcases List.mem_cons.mp ho with h' | h'
        · exact absurd h'.symm h
        · exact h'
      have e1 : (a :: os).filterMap (Function.update f o p) = (f a).toList ++ os.filterMap (Function.update f o p) := by
        rw [List.filterMap_cons, Function.update_of_ne h]; cases f a <;> simp
      have e2 : (a :: os).filterMap f = (f a).toList ++ os.filterMap f := by
        rw [List.filterMap_cons]; cases f a <;> simp
      rw [e1, e2, List.append_assoc]
      refine (List.Perm.append_left _ (ih hnd' ho')).trans ?_
      rw [← List.append_assoc, ← List.append_assoc]
      exact List.Perm.append_right _ List.perm_append_comm

/-- the books balance: every registration is either still held or has been deleted, once -/
structure Balanced (os : List Own) (given gone : List Nat) (h : Heap Own) : Prop where
  perm : given.Perm (gone ++ held os h)
  nodup : gone.Nodup
  gone_iff : ∀ p, p ∈ gone ↔ h.deleted p = true

theorem balanced_step {os : List Own} (hnd : os.Nodup) {given gone : List Nat} {h h' : Heap Own}
    (hb : Balanced os given gone h) {s : Step Own} (ho : s.owner ∈ os) (hr : s.run h = .ok h') :
    ∃ gone', Balanced os (given ++ s.given) gone' h' := by
  rw [run_eq] at hr
  have hh := reset_holds hr
  have hp := held_update hnd ho h.holds s.given.head?
  rw [reset] at hr
  rw [← given_head] at hp
  cases hq : h.holds s.owner with
  | none =>
    simp only [hq, Outcome.ok.injEq] at hr
    rw [hq] at hp
    simp only [Option.toList_none, List.append_nil] at hp
    refine ⟨gone, ?_, hb.nodup, fun p => by rw [hb.gone_iff, ← hr]⟩
    rw [held, hh]
    refine (hb.perm.append_right _).trans ?_
    rw [List.append_assoc]
    exact List.Perm.append_left _ (List.perm_append_comm.trans hp.symm)
  | some q =>
    simp only [hq] at hr
    split at hr
    · cases hr
    · rename_i hdel
      simp only [Outcome.ok.injEq] at hr
      rw [hq] at hp
      refine ⟨gone ++ [q], ?_, ?_, fun p => ?_⟩
      · rw [held, hh]
        refine (hb.perm.append_right _).trans ?_
        rw [List.append_assoc, List.append_assoc]
        refine List.Perm.append_left _ ?_
        exact (List.perm_append_comm.trans hp.symm).trans List.perm_append_comm
      · refine List.nodup_append.mpr ⟨hb.nodup, by simp, ?_⟩
        intro a ha b hb' hab
        simp only [List.mem_singleton] at hb'
        subst hab hb'
        exact hdel ((hb.gone_iff a).mp ha)
      · rw [List.mem_append, hb.gone_iff, ← hr]
        by_cases hpq : p = q
        · subst hpq; simp
        · simp [hpq]

theorem balanced_run {os : List Own} (hnd : os.Nodup) {given gone : List Nat} {h h' : Heap Own}
    (hb : Balanced os given gone h) {ss : List (Step Own)} (ho : ∀ s ∈ ss, s.owner ∈ os) (hr : runSteps ss h = .ok h') :
    ∃ gone', Balanced os (given ++ registered ss) gone' h' := by
  induction ss generalizing given gone h with
  | nil =>
    simp only [runSteps, Outcome.ok.injEq] at hr
    subst hr
    exact ⟨gone, by simpa [registered] using hb⟩
  | cons s ss ih =>
    rw [runSteps] at hr
    cases h1 : s.run h with
    | ok h1' =>
      rw [h1] at hr
      obtain ⟨g1, hb1⟩ := balanced_step hnd hb (ho s (by simp)) h1
      obtain ⟨g2, hb2⟩ := ih hb1 (fun t ht => ho t (by simp [ht])) hr
      refine ⟨g2, ?_⟩
      have : given ++ registered (s :: ss) = given ++ s.given ++ registered ss := by
        simp [registered]
      rwa [this]
    | _ => rw [h1] at hr; cases hr

omit [DecidableEq Own] in
theorem balanced_start (os : List Own) : Balanced os [] [] (Heap.start : Heap Own) :=
  ⟨by simp [held, Heap.start], by simp, by simp [Heap.start]⟩

/-- while the registrations are distinct nothing can go wrong -/
theorem runs_of_nodup {os : List Own} (hos : os.Nodup) {given gone : List Nat} {h : Heap Own}
    (hb : Balanced os given gone h) {ss : List (Step Own)} (ho : ∀ s ∈ ss, s.owner ∈ os)
    (hd : (given ++ registered ss).Nodup) : ∃ h', runSteps ss h = .ok h' := by
  induction ss generalizing given gone h with
  | nil => exact ⟨h, rfl⟩
  | cons s ss ih =>
    have hgn : given.Nodup := hd.of_append_left
    have hrun : ∃ h1, s.run h = .ok h1 := by
      rw [run_eq, reset]
      cases hq : h.holds s.owner with
      | none => exact ⟨_, rfl⟩
      | some q =>
        have hnd : (gone ++ held os h).Nodup := hb.perm.nodup_iff.mp hgn
        have hqh : q ∈ held os h := List.mem_filterMap.mpr ⟨s.owner, ho s (by simp), hq⟩
        have hng : h.deleted q = false := by
          cases hdq : h.deleted q with
          | false => rfl
          | true => exact absurd rfl ((List.nodup_append.mp hnd).2.2 q ((hb.gone_iff q).mpr hdq) q hqh)
        simp [hng]
    obtain ⟨h1, hr1⟩ := hrun
    obtain ⟨g1, hb1⟩ := balanced_step hos hb (ho s (by simp)) hr1
    have hreg : given ++ registered (s :: ss) = given ++ s.given ++ registered ss := by simp [registered]
    obtain ⟨h', hr'⟩ := ih hb1 (fun t ht => ho t (by simp [ht])) (by rwa [hreg] at hd)
    exact ⟨h', by rw [runSteps, hr1]; exact hr'⟩

theorem owners_exist (ss : List (Step Own)) : ∃ os : List Own, os.Nodup ∧ ∀ s ∈ ss, s.owner ∈ os :=
  ⟨(ss.map Step.owner).dedup, List.nodup_dedup _, fun _ hs => List.mem_dedup.mpr (List.mem_map_of_mem hs)⟩

/-- **C108** if no source is registered twice, with one engine or with several, nothing undefined
happens, each engine has the source last registered with it, and a source has been deleted exactly
when it has been registered and no engine has it any more; for any number of engines and any
order of registrations, replacements and destructions -/
theorem C108_owned_partial (ss : List (Step Own)) (hd : (registered ss).Nodup) :
    ∃ h, runSteps ss Heap.start = .ok h ∧ (∀ o, h.holds o = lastGiven o ss) ∧
      (∀ p, h.deleted p = true ↔ p ∈ registered ss ∧ ∀ o, h.holds o ≠ some p) ∧
      (∀ o o' p, h.holds o = some p → h.holds o' = some p → o = o') := by
  obtain ⟨os, hos, ho⟩ := owners_exist ss
  have hb0 := balanced_start os
  obtain ⟨h, hr⟩ := runs_of_nodup hos hb0 ho (by simpa using hd)
  obtain ⟨gone, hb⟩ := balanced_run hos hb0 ho hr
  simp only [List.nil_append] at hb
  have hall := hb.perm.nodup_iff.mp hd
  have hhold : ∀ o, h.holds o = lastGiven o ss := fun o => runSteps_holds ss _ _ hr o
  have hown : ∀ o p, h.holds o = some p → o ∈ os := by
    intro o p hp
    rw [hhold] at hp
    by_contra hno
    have : ∀ (l : List (Step Own)) (c : Option Nat), (∀ s ∈ l, s.owner ∈ os) →
        l.foldl (fun cur s => if s.owner = o then s.given.head? else cur) c = c := by
      intro l
      induction l with
      | nil => intro c _; rfl
      | cons s l ih =>
        intro c hl
        rw [List.foldl_cons, if_neg (fun hso : s.owner = o => hno (hso ▸ hl s (by simp))), ih c fun t ht => hl t (by simp [ht])]
    rw [lastGiven, this ss none ho] at hp
    cases hp
  refine ⟨h, hr, hhold, fun p => ?_, fun o o' p h1 h2 => ?_⟩
  · rw [← hb.gone_iff]
    constructor
    · intro hp
      refine ⟨hb.perm.mem_iff.mpr (by simp [hp]), fun o hop => ?_⟩
      exact (List.nodup_append.mp hall).2.2 p hp p (List.mem_filterMap.mpr ⟨o, hown o p hop, hop⟩) rfl
    · rintro ⟨hp, hno⟩
      rcases List.mem_append.mp (hb.perm.mem_iff.mp hp) with h1 | h1
      · exact h1
      · obtain ⟨o, _, hop⟩ := List.mem_filterMap.mp h1
        exact absurd hop (hno o)
  · by_contra hne
    have hhn := (List.nodup_append.mp hall).2.1
    have hgo : ∀ l : List Own, l.Nodup → o ∈ l → o' ∈ l → ¬ (l.filterMap h.holds).Nodup := by
      intro l
      induction l with
      | nil => intro _ hx; simp at hx
      | cons a l ih =>
        intro hl hx hy hn
        obtain ⟨ha, hl'⟩ := List.nodup_cons.mp hl
        rcases List.mem_cons.mp hx with rfl | hx'
        · rcases List.mem_cons.mp hy with rfl | hy'
          · exact hne rfl
          · rw [List.filterMap_cons, h1] at hn
            exact (List.nodup_cons.mp hn).1 (List.mem_filterMap.mpr ⟨o', hy', h2⟩)
        · rcases List.mem_cons.mp hy with rfl | hy'
          · rw [List.filterMap_cons, h2] at hn
            exact (List.nodup_cons.mp hn).1 (List.mem_filterMap.mpr ⟨o, hx', h1⟩)
          · refine ih hl' hx' hy' ?_
            rw [List.filterMap_cons] at hn
            cases ha' : h.holds a with
            | none => rwa [ha'] at hn
            | some q => rw [ha'] at hn; exact (List.nodup_cons.mp hn).2
    exact hgo os hos (hown o p h1) (hown o' p h2) hhn

/-- two engines; the source of the first is replaced, the second is destroyed -/
example : ∃ h, runSteps [.register 'a' (some 1), .register 'b' (some 2), .register 'a' (some 3), .destroy 'b'] Heap.start = .ok h ∧
    h.holds 'a' = some 3 ∧ h.deleted 1 = true ∧ h.deleted 2 = true ∧ h.deleted 3 = false :=
  ⟨_, rfl, by decide, by decide, by decide, by decide⟩

/-- **C108** and when the engines are destroyed at the end, the program is defined exactly if no
source was registered twice, and then every source has been deleted -/
theorem C108_whole_program_iff (ss : List (Step Own)) (os : List Own) (hos : os.Nodup) (ho : ∀ s ∈ ss, s.owner ∈ os) :
    (∃ h, runSteps (ss ++ os.map .destroy) Heap.start = .ok h ∧ ∀ p, h.deleted p = true ↔ p ∈ registered ss) ↔
      (registered ss).Nodup := by
  have ho' : ∀ s ∈ ss ++ os.map Step.destroy, s.owner ∈ os := by
    intro s hs
    rcases List.mem_append.mp hs with h | h
    · exact ho s h
    · obtain ⟨o, h1, rfl⟩ := List.mem_map.mp h; exact h1
  have hreg : registered (ss ++ os.map Step.destroy) = registered ss := by
    have h0 : registered (os.map Step.destroy) = [] := by
      rw [registered, List.flatMap_eq_nil_iff]
      intro s hs
      obtain ⟨o, _, rfl⟩ := List.mem_map.mp hs
      rfl
    rw [registered, List.flatMap_append, ← registered, ← registered, h0, List.append_nil]
  have hempty : ∀ h, runSteps (ss ++ os.map Step.destroy) Heap.start = .ok h → held os h = [] := by
    intro h hr
    rw [held, List.filterMap_eq_nil_iff]
    intro o hoo
    rw [runSteps_holds _ _ _ hr o, List.foldl_append]
    have : ∀ (l : List Own) (c : Option Nat), o ∈ l →
        (l.map Step.destroy).foldl (fun cur s => if s.owner = o then s.given.head? else cur) c = none := by
      intro l
      induction l with
      | nil => intro c hx; simp at hx
      | cons a l ih =>
        intro c hx
        rw [List.map_cons, List.foldl_cons]
        by_cases hl : o ∈ l
        · exact ih _ hl
        · have hao : a = o := by
            rcases List.mem_cons.mp hx with h | h
            · exact h.symm
            · exact absurd h hl
          subst hao
          have hstay : ∀ (m : List Own), a ∉ m →
              (m.map Step.destroy).foldl (fun cur s => if s.owner = a then s.given.head? else cur) none = none := by
            intro m
            induction m with
            | nil => intro _; rfl
            | cons b m ihm =>
              intro hb
              have hba : b ≠ a := by rintro rfl; simp at hb
              rw [List.map_cons, List.foldl_cons]
              simp only [Step.owner, hba, if_false]
              exact ihm fun h => hb (by simp [h])
          simp only [Step.owner, if_true, Step.given, List.head?_nil]
          exact hstay l hl
    exact this os _ hoo
  constructor
  · rintro ⟨h, hr, _⟩
    obtain ⟨gone, hb⟩ := balanced_run hos (balanced_start os) ho' hr
    have hp := hb.perm
    rw [hreg, hempty h hr, List.nil_append, List.append_nil] at hp
    exact hp.nodup_iff.mpr hb.nodup
  · intro hd
    obtain ⟨h, hr⟩ := runs_of_nodup hos (balanced_start os) ho' (by rw [hreg]; simpa using hd)
    obtain ⟨gone, hb⟩ := balanced_run hos (balanced_start os) ho' hr
    have hp := hb.perm
    rw [hreg, hempty h hr, List.nil_append, List.append_nil] at hp
    exact ⟨h, hr, fun p => by rw [← hb.gone_iff, hp.mem_iff]⟩

/-- two engines with two sources each -/
example : (registered [Step.register 'a' (some 1), .register 'b' (some 2), .register 'a' (some 3), .register 'b' none,
    .register 'b' (some 4)]).Nodup := by decide

/-- **C108** registering the source an engine already has deletes it and keeps pointing to it -/
theorem C108_again_fails (o : Own) (p : Nat) (cfg : Dbc.Cfg) :
    ∃ h, runSteps [.register o (some p), .register o (some p)] Heap.start = .ok h ∧ hasSource o h = true ∧
      getSource cfg o h = .ub ∧ runSteps [.destroy o] h = .ub := by
  refine ⟨⟨Function.update (fun _ => false) p true, Function.update (Function.update (fun _ => none) o (some p)) o (some p)⟩, ?_, ?_, ?_, ?_⟩
  · simp [runSteps, Step.run, reset, Heap.start, Outcome.bind]
  · simp [hasSource]
  · simp [getSource, hasSource]
  · simp [runSteps, Step.run, reset, Outcome.bind]

/-- **C108** one source registered with two engines is deleted by both -/
theorem C108_shared_fails (o o' : Own) (hne : o ≠ o') (p : Nat) :
    runSteps [.register o (some p), .register o' (some p), .destroy o, .destroy o'] Heap.start = .ub := by
  simp [runSteps, Step.run, reset, Heap.start, Outcome.bind, hne, Ne.symm hne]

example : 'a' ≠ 'b' := by decide

/-- **C108** in a program that registers no source twice, asking an engine for its source gives the one
last registered with it, which is still there, and `has..source` says whether there is one -/
theorem C108_get (ss : List (Step Own)) (hd : (registered ss).Nodup) (cfg : Dbc.Cfg) (o : Own) :
    ∃ h, runSteps ss Heap.start = .ok h ∧ (hasSource o h = true ↔ ∃ p, lastGiven o ss = some p) ∧
      ∀ p, lastGiven o ss = some p → getSource cfg o h = .ok p := by
  obtain ⟨h, hr, hl, hdel, _⟩ := C108_owned_partial ss hd
  refine ⟨h, hr, ?_, fun p hp => ?_⟩
  · rw [hasSource, hl, Option.isSome_iff_exists]
  · have hlive : h.deleted p = false := by
      cases hx : h.deleted p with
      | false => rfl
      | true => exact absurd (by rw [hl, hp]) (((hdel p).mp hx).2 o)
    simp [getSource, hasSource, hl, hp, hlive]

example : lastGiven 'a' [.register 'a' (some 1), .register 'b' (some 2), .register 'a' (some 3)] = some 3 := by decide

omit [DecidableEq Own] in
/-- **C108** asking for a source that is not there throws, as documented, exactly when the checks are
compiled in and set to throw; otherwise a null pointer is dereferenced -/
theorem C108_get_absent_iff (cfg : Dbc.Cfg) (o : Own) (h : Heap Own) (hno : hasSource o h = false) :
    (getSource cfg o h = .throws "logic_error" ↔ cfg.requireOn = true ∧ cfg.action = .throwException) ∧
      (getSource cfg o h = .ub ↔ ¬ (cfg.requireOn = true ∧ cfg.action = .throwException)) := by
  have hn : h.holds o = none := by
    cases hx : h.holds o with
    | none => rfl
    | some p => simp [hasSource, hx] at hno
  by_cases h1 : cfg.requireOn = true <;> by_cases h2 : cfg.action = .throwException <;>
    simp [getSource, hno, hn, h1, h2]

example : hasSource 'b' (Heap.start : Heap Char) = false := by decide

/-- **C108** so in a build without the checks the documented exception does not come -/
theorem C108_get_absent_fails : getSource ⟨false, .throwException⟩ 'a' (Heap.start : Heap Char) = .ub := by decide

end

/-! ## C70: groups and the types of parameters -/

/-- registering groups one after the other -/
def registerGroups (l : List (List Char × List Char)) (d : List Char → Option (List Char)) : List Char → Option (List Char) :=
  l.foldl (fun d g => (registerGroup g.1 g.2 d).1) d

/-- **C70** a group has the first title registered for it, and no other group is touched -/
theorem C70_group (l : List (List Char × List Char)) (d : List Char → Option (List Char)) (key : List Char) :
    registerGroups l d key = ((d key).orElse fun _ => (l.find? (·.1 = key)).map (·.2)) := by
  induction l generalizing d with
  | nil => cases h : d key <;> simp [registerGroups, h]
  | cons g l ih =>
    have hstep : registerGroups (g :: l) d = registerGroups l (registerGroup g.1 g.2 d).1 := rfl
    rw [hstep, ih]
    rcases g with ⟨k, t⟩
    simp only [registerGroup, List.find?_cons]
    by_cases hk : k = key
    · subst hk
      cases hd : d k with
      | none => simp [Option.orElse]
      | some v => simp [hd, Option.orElse]
    · have hb : decide (k = key) = false := by simp [hk]
      simp only [hb]
      cases hd : (d k).isSome with
      | true => simp
      | false => simp [Ne.symm hk]

example : registerGroups [(['a'], ['x']), (['b'], ['y']), (['a'], ['z'])] (fun _ => none) ['a'] = some ['x'] := by decide

/-- **C70** a second title for a group is dropped, and `register_group` says nothing of it -/
theorem C70_group_again_fails : ∃ d, registerGroup ['a'] ['x'] (fun _ => none) = (d, true) ∧
    registerGroup ['a'] ['z'] d = (d, true) ∧ d ['a'] = some ['x'] := by
  refine ⟨Function.update (fun _ => none) ['a'] (some ['x']), ?_, ?_, ?_⟩
  · simp [registerGroup]
  · simp [registerGroup]
  · simp

/-- **C70** a default of a type other than the four supported ones is accepted by the compiler, but
registering it copies a variable that was never set; nothing of its value is stored either -/
theorem C70_type_iff (isNew : Bool) (t : GivenType) : registerTyped isNew t = .ub ↔ isNew = true ∧ t = .other := by
  cases isNew <;> cases t <;> simp [registerTyped, storedType]

/-- the type of a default value of a supported type -/
def Default.givenType : Default → GivenType
  | .size _ => .size
  | .float _ => .float
  | .double _ => .double
  | .string _ => .string

/-- **C70** a default of a supported type is stored with the tag by which its bytes are read back -/
theorem C70_type_tag (d : Default) : registerTyped true d.givenType = .ok (some (encode d).2) := by
  cases d <;> rfl

example : registerTyped true (Default.float 0x3f800000#32).givenType = .ok (some .float) := rfl

/-- **C70** so registering an `int` parameter is undefined -/
theorem C70_type_fails : registerTyped true .other = .ub := rfl

end Verif.InputEngine
