import Verif.Catalyst.AdaptorModel
import Mathlib.Logic.Function.Basic

/-!
# Properties of the visualisation adaptor and the log files
-/

namespace Verif.Catalyst

section
variable {S G T : Type}

namespace Spec

/-- one call of `process` -/
structure Step (G T : Type) where
  grid : G
  time : T
  step : Nat
  last : Bool

/-- the runs that should come of a step: every script that wants it, or all if it is the last -/
def due (wants : S → T → Nat → Bool) (scripts : List S) (c : Step G T) : List (Run S G T) :=
  (scripts.filter fun s => c.last || wants s c.time c.step).map fun s => ⟨s, some c.grid, c.time, c.step⟩

end Spec
open Spec

/-- a history of calls on one adaptor -/
def processAll (wants : S → T → Nat → Bool) (w : World S G T) (a : Nat) : List (Step G T) → Outcome (World S G T)
  | [] => .ok w
  | c :: cs => process wants w a c.grid c.time c.step c.last >>= fun w => processAll wants w a cs

theorem addPipelines_eq (ps ss : List S) : addPipelines ps ss = ps ++ ss := by
  induction ss generalizing ps with
  | nil => simp [addPipelines]
  | cons s ss ih => rw [addPipelines, ih]; simp

theorem runDesc_eq (wants : S → T → Nat → Bool) (w : World S G T) (ps : List S) (d : Desc G T) (grid : G) :
    runDesc wants w ps d grid = ⟨w.procs, w.runs ++ List.map (fun s => ⟨s, some grid, d.time, d.step⟩)
      (ps.filter fun s => d.force || wants s d.time d.step)⟩ := by
  unfold runDesc requestData coProcess
  by_cases h : ps.any (asks wants d) = true
  · rw [if_pos h]; rfl
  · rw [if_neg h]
    have : ps.filter (fun s => d.force || wants s d.time d.step) = [] := by
      rw [List.filter_eq_nil_iff]
      intro s hs hb
      exact h (List.any_eq_true.2 ⟨s, hs, hb⟩)
    rw [this]; simp

theorem process_eq (wants : S → T → Nat → Bool) (w : World S G T) (a : Nat) (scripts : List S)
    (hw : w.procs[a]? = some (some scripts)) (c : Step G T) :
    process wants w a c.grid c.time c.step c.last = .ok { w with runs := w.runs ++ due wants scripts c } := by
  unfold process World.proc
  rw [hw]
  simp only [Outcome.bind_ok]
  rw [runDesc_eq]
  cases hl : c.last <;> simp [due, hl]

/-- **C89** An adaptor made from a list of scripts runs, over any history of steps, exactly the
scripts that want each step, all of them at a step said to be the last, in the order of the list,
each with the grid, time and step given; no other adaptor is affected.  Ending the adaptor releases
it. -/
theorem C89_process (wants : S → T → Nat → Bool) (w : World S G T) (scripts : List S) (cs : List (Step G T)) :
    ∃ a w', construct w scripts = (a, w') ∧ ∃ w'', processAll wants w' a cs = .ok w'' ∧
      w''.runs = w.runs ++ cs.flatMap (due wants scripts) ∧
      (∀ b, b ≠ a → w''.procs[b]? = w.procs[b]?) ∧
      ∃ e, destroy w'' (some a) = .ok e ∧ e.procs = w.procs ++ [none] ∧ e.runs = w''.runs := by
  refine ⟨_, _, rfl, ?_⟩
  have key : ∀ (cs : List (Step G T)) (v : World S G T), v.procs = w.procs ++ [some scripts] →
      processAll wants v w.procs.length cs = .ok { v with runs := v.runs ++ cs.flatMap (due wants scripts) } := by
    intro cs
    induction cs with
    | nil => intro v _; simp [processAll]
    | cons c cs ih =>
      intro v hv
      rw [processAll, process_eq wants v _ scripts (by rw [hv]; simp) c, Outcome.bind_ok, ih { v with runs := v.runs ++ due wants scripts c } hv]
      simp
  refine ⟨_, key cs _ (by simp [addPipelines_eq]), by simp, fun b hb => ?_, ?_⟩
  · simp only
    rcases Nat.lt_or_gt_of_ne hb with h | h
    · rw [List.getElem?_append_left h]
    · rw [List.getElem?_eq_none (by simp; omega), List.getElem?_eq_none (by omega)]
  · refine ⟨⟨w.procs ++ [none], w.runs ++ cs.flatMap (due wants scripts)⟩, ?_, rfl, by simp⟩
    simp [destroy, World.delete, World.proc, addPipelines_eq, List.set_append]

/-- two scripts, one that wants every second step -/
def evenSteps (s : Bool) (_ : Nat) (k : Nat) : Bool := s && k % 2 == 0

example : ([⟨"g", 0, 0, false⟩, ⟨"g", 1, 1, false⟩, ⟨"h", 2, 3, true⟩] : List (Step String Nat)).flatMap
      (due evenSteps [true, false])
    = [⟨true, some "g", 0, 0⟩, ⟨true, some "h", 2, 3⟩, ⟨false, some "h", 2, 3⟩] := by
  simp [due, evenSteps]

/-- **C89** The free function runs every script at every step, whether or not the script wants it
and whether or not the step is the last. -/
theorem C89_free_function (wants : S → T → Nat → Bool) (w : World S G T) (a : Nat) (scripts : List S)
    (hw : w.procs[a]? = some (some scripts)) (c : Step G T) :
    processFree wants w a c.grid c.time c.step c.last
      = .ok { w with runs := w.runs ++ scripts.map fun s => ⟨s, some c.grid, c.time, c.step⟩ } := by
  unfold processFree World.proc
  rw [hw]
  simp only [Outcome.bind_ok]
  rw [runDesc_eq]
  cases hl : c.last <;> simp <;> rw [List.filter_eq_self.2 fun _ _ => rfl]

/-- two scripts, neither of which wants the step 3 -/
example : ∃ w : World Bool String Nat, w.procs[0]? = some (some [true, false]) ∧ evenSteps true 5 3 = false ∧
    ∃ w', processFree evenSteps w 0 "g" 5 3 false = .ok w' ∧ w'.runs.length = w.runs.length + 2 :=
  ⟨⟨[some [true, false]], []⟩, rfl, rfl, _, C89_free_function evenSteps _ 0 [true, false] rfl ⟨"g", 5, 3, false⟩, rfl⟩

/-- **C89** fails for the free function: a step that is not the last and that no script wants is
processed all the same. -/
theorem C89_free_function_fails :
    ∃ (w : World Bool String Nat) (c : Step String Nat) (w' : World Bool String Nat),
      w.procs[0]? = some (some [true]) ∧ due evenSteps [true] c = [] ∧
      processFree evenSteps w 0 c.grid c.time c.step c.last = .ok w' ∧ w'.runs ≠ w.runs := by
  refine ⟨⟨[some [true]], []⟩, ⟨"g", 0, 1, false⟩, _, rfl, by simp [due, evenSteps],
    C89_free_function evenSteps _ 0 [true] rfl _, by simp⟩

/-- **C89** The free function does what the member function does exactly at steps that are the
last or that every script wants. -/
theorem C89_free_function_iff (wants : S → T → Nat → Bool) (w : World S G T) (a : Nat) (scripts : List S)
    (hw : w.procs[a]? = some (some scripts)) (c : Step G T) :
    processFree wants w a c.grid c.time c.step c.last = process wants w a c.grid c.time c.step c.last ↔
      c.last = true ∨ ∀ s ∈ scripts, wants s c.time c.step = true := by
  rw [C89_free_function wants w a scripts hw c, process_eq wants w a scripts hw c]
  constructor
  · intro h
    simp only [Outcome.ok.injEq, World.mk.injEq, true_and] at h
    have h2 := congrArg List.length (List.append_cancel_left h)
    simp only [List.length_map, due] at h2
    have h3 := List.length_filter_eq_length_iff.1 h2.symm
    cases hl : c.last
    · right; intro s hs; simpa [hl] using h3 s hs
    · left; rfl
  · intro h
    have : scripts.filter (fun s => c.last || wants s c.time c.step) = scripts := by
      rw [List.filter_eq_self]
      intro s hs
      rcases h with h | h
      · simp [h]
      · simp [h s hs]
    simp [due, this]

example : (∃ s, s ∈ [true, false] ∧ evenSteps s 0 2 = false) := ⟨false, by simp, rfl⟩

/-- **C89** fails for copies: an adaptor can be copied, and ending both the copy and the original is
undefined. -/
theorem C89_copy_fails (w : World S G T) (scripts : List S) :
    ∃ a w', construct w scripts = (a, w') ∧ ∃ e, destroy w' (copyAdaptor (some a)) = .ok e ∧
      destroy e (some a) = .ub := by
  refine ⟨_, _, rfl, ⟨w.procs ++ [none], w.runs⟩, ?_, ?_⟩
  · simp [destroy, copyAdaptor, World.delete, World.proc, List.set_append]
  · simp [destroy, World.delete, World.proc]

/-- **C89** fails for `finalizeAdaptor`: every call is undefined, as the function ends without
giving its result. -/
theorem C89_finalize_fails (w : World S G T) (ptr : Option Nat) : finalizeAdaptor w ptr = .ub := by
  unfold finalizeAdaptor destroy World.delete World.proc
  cases ptr with
  | none => rfl
  | some a =>
    simp only
    cases w.procs[a]? with
    | none => rfl
    | some p => cases p <;> rfl

end

/-! ## log files -/

section
variable (openable : Txt → Bool)

/-- **C90** The last text written under a name is what the file holds, `writeLog` and
`writeLogNew` alike, and no other file changes. -/
theorem C90_write (fs : Files) (name log : Txt) (h : openable (cName (name ++ ".log".toList)) = true) :
    writeLog openable fs name log (cName (name ++ ".log".toList)) = some log ∧
    writeLogNew openable fs name log = writeLog openable fs name log ∧
    ∀ f, f ≠ cName (name ++ ".log".toList) → writeLog openable fs name log f = fs f := by
  refine ⟨by rw [writeLog, writeOut, if_pos h, Function.update_self]; rfl, rfl, fun f hf => ?_⟩
  rw [writeLog, writeOut, if_pos h, Function.update_of_ne hf]

/-- **C90** Texts appended to a log one after the other are found there in order, after what the
file held before; no other file changes. -/
theorem C90_append (fs : Files) (name : Txt) (logs : List Txt) (hne : logs ≠ [])
    (h : openable (cName (name ++ ".log".toList)) = true) :
    let fs' := logs.foldl (fun fs l => writeLogApp openable fs name l) fs
    fs' (cName (name ++ ".log".toList)) = some ((fs (cName (name ++ ".log".toList))).getD [] ++ logs.flatten) ∧
    ∀ f, f ≠ cName (name ++ ".log".toList) → fs' f = fs f := by
  intro fs'
  generalize hn : cName (name ++ ".log".toList) = n at *
  have step : ∀ (fs : Files) (l : Txt), writeLogApp openable fs name l
      = Function.update fs n (some ((fs n).getD [] ++ l)) := by
    intro fs l
    rw [writeLogApp, writeApp, hn, if_pos h]
  have key : ∀ (logs : List Txt) (fs : Files),
      ((logs.foldl (fun fs l => writeLogApp openable fs name l) fs) n).getD [] = (fs n).getD [] ++ logs.flatten ∧
      (logs ≠ [] → ((logs.foldl (fun fs l => writeLogApp openable fs name l) fs) n).isSome) ∧
      ∀ f, f ≠ n → (logs.foldl (fun fs l => writeLogApp openable fs name l) fs) f = fs f := by
    intro logs
    induction logs with
    | nil => intro fs; simp
    | cons l logs ih =>
      intro fs
      rw [List.foldl_cons, step]
      obtain ⟨h1, h2, h3⟩ := ih (Function.update fs n (some ((fs n).getD [] ++ l)))
      refine ⟨by rw [h1]; simp, fun _ => ?_, fun f hf => by rw [h3 f hf, Function.update_of_ne hf]⟩
      cases logs with
      | nil => simp
      | cons l' ls => exact h2 (by simp)
  obtain ⟨h1, h2, h3⟩ := key logs fs
  refine ⟨?_, h3⟩
  obtain ⟨x, hx⟩ := Option.isSome_iff_exists.1 (h2 hne)
  show fs' n = _
  rw [show fs' n = some x from hx, ← h1, hx]
  rfl

example : ((["ab".toList, "c".toList].foldl (fun fs l => writeLogApp (fun _ => true) fs "run".toList l)
    (fun _ => none)) "run.log".toList) = some "abc".toList := by decide

/-- what has been inserted since the last clearing -/
def inserted : List LogOp → Txt → Txt
  | [], t => t
  | .insert u :: ops, t => inserted ops (t ++ u)
  | .clear :: ops, _ => inserted ops []
  | _ :: ops, t => inserted ops t

/-- the file name set last -/
def named : List LogOp → Txt → Txt
  | [], n => n
  | .setName m :: ops, _ => named ops m
  | _ :: ops, n => named ops n

/-- **C90** Whatever is done with a log object, writing it gives the file named last exactly the
text inserted since the last clearing, and changes no other file; writing does not clear the log,
so writing again later includes it again. -/
theorem C90_object (l : Log) (fs : Files) (ops : List LogOp)
    (h : openable (cName (named ops l.outputFilename)) = true) :
    let s := logSteps openable (l, fs) ops
    let r := logStep openable s .write
    r.2 (cName (named ops l.outputFilename)) = some (inserted ops l.log) ∧
    (∀ f, f ≠ cName (named ops l.outputFilename) → r.2 f = s.2 f) ∧
    r.1.log = inserted ops l.log := by
  have key : ∀ (ops : List LogOp) (l : Log) (fs : Files),
      (logSteps openable (l, fs) ops).1.log = inserted ops l.log ∧
      (logSteps openable (l, fs) ops).1.outputFilename = named ops l.outputFilename := by
    intro ops
    induction ops with
    | nil => intro l fs; exact ⟨rfl, rfl⟩
    | cons o ops ih =>
      intro l fs
      cases o <;> exact ih _ _
  intro s r
  obtain ⟨h1, h2⟩ := key ops l fs
  have hr : r = (s.1, writeOut openable s.2 s.1.outputFilename s.1.log) := rfl
  have hlog : s.1.log = inserted ops l.log := h1
  have hname : s.1.outputFilename = named ops l.outputFilename := h2
  rw [hr, hlog, hname]
  refine ⟨by simp [writeOut, h], fun f hf => ?_, rfl⟩
  show writeOut openable _ _ _ f = _
  rw [writeOut, if_pos h, Function.update_of_ne hf]

example : inserted [.insert "a".toList, .clear, .insert "b".toList, .write, .insert "c".toList] [] = "bc".toList ∧
    named [.insert "a".toList, .setName "f".toList, .write] "untitled.log".toList = "f".toList := by decide

/-- **C90** fails for the end of a log object: text inserted and not written is lost, the
destructor writes nothing. -/
theorem C90_destructor_fails :
    ∃ ops : List LogOp, inserted ops [] ≠ [] ∧
      ∀ fs : Files, logEnd (logSteps openable (Log.default, fs) ops) = fs :=
  ⟨[.insert ['x']], by decide, fun _ => rfl⟩

/-- **C90** fails for files that cannot be opened: nothing is written and nothing is said. -/
theorem C90_unopened_fails (fs : Files) (name log : Txt) (h : openable (cName (name ++ ".log".toList)) = false) :
    writeLog openable fs name log = fs ∧ writeLogApp openable fs name log = fs ∧
    writeLogNew openable fs name log = fs := by
  refine ⟨?_, ?_, ?_⟩
  · rw [writeLog, writeOut, if_neg (by rw [h]; decide)]
  · rw [writeLogApp, writeApp, if_neg (by rw [h]; decide)]
  · rw [writeLogNew, writeOut, if_neg (by rw [h]; decide)]

example : (fun _ : Txt => false) (cName ("/dev/full/x".toList ++ ".log".toList)) = false := rfl

end

end Verif.Catalyst
