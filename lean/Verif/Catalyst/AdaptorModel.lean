import Verif.Common.Outcome
import Mathlib.Logic.Function.Basic

/-!
# Model of `ristra/io/catalyst/adaptor.h` and `ristra/io/catalyst/utils/insituLog.hpp`

Of VTK the following is assumed.  A processor holds the pipelines added, in order.  A pipeline
asks for a grid when its script wants one at that time and step, or when output is forced;
`RequestDataDescription` says whether any pipeline asks, and `CoProcess` runs those that do with
the grid set.  `Delete` destroys the processor (nobody else holds a reference); using or deleting
a destroyed processor is undefined.  MPI, the timers and what the scripts do are not modelled; a
script that cannot be loaded is one that never wants a grid (and the code does not look at the
result of loading it).

A file is its contents; opening for writing succeeds or not (`openable`), which depends on the
name alone, and writing to an unopened stream does nothing.
-/

namespace Verif.Catalyst

/-! ## the adaptor -/

section
variable {S G T : Type}

/-- one pipeline run: the script, and the grid, time and step it is given -/
structure Run (S G T : Type) where
  script : S
  grid : Option G
  time : T
  step : Nat

/-- `vtkCPDataDescription` with the input "input" -/
structure Desc (G T : Type) where
  time : T
  step : Nat
  force : Bool
  grid : Option G

/-- the processors created so far (`none`: destroyed) and the pipelines run so far -/
structure World (S G T : Type) where
  procs : List (Option (List S))
  runs : List (Run S G T)

/-- does the pipeline ask for a grid -/
def asks (wants : S → T → Nat → Bool) (d : Desc G T) (p : S) : Bool := d.force || wants p d.time d.step

/-- `vtkCPProcessor::RequestDataDescription` -/
def requestData (wants : S → T → Nat → Bool) (ps : List S) (d : Desc G T) : Bool := ps.any (asks wants d)

/-- `vtkCPProcessor::CoProcess` -/
def coProcess (wants : S → T → Nat → Bool) (ps : List S) (d : Desc G T) : List (Run S G T) :=
  (ps.filter (asks wants d)).map fun p => ⟨p, d.grid, d.time, d.step⟩

/-- the processor at an address -/
def World.proc (w : World S G T) (a : Nat) : Outcome (List S) :=
  match w.procs[a]? with
  | some (some ps) => .ok ps
  | _ => .ub

/-- `for (script : scripts) AddPipeline(script)` -/
def addPipelines : List S → List S → List S
  | ps, [] => ps
  | ps, s :: ss => addPipelines (ps ++ [s]) ss

/-- `adaptor_t::adaptor_t(scripts)`, adaptor.h:140-151, and `initAdaptor`, adaptor.h:49-78 -/
def construct (w : World S G T) (scripts : List S) : Nat × World S G T :=
  (w.procs.length, { w with procs := w.procs ++ [some (addPipelines [] scripts)] })

/-- what both forms do once the description is made, adaptor.h:103-109 and 181-188 -/
def runDesc (wants : S → T → Nat → Bool) (w : World S G T) (ps : List S) (d : Desc G T) (grid : G) : World S G T :=
  if requestData wants ps d then { w with runs := w.runs ++ coProcess wants ps { d with grid := some grid } } else w

/-- `adaptor_t::process`, adaptor.h:163-190, for the adaptor that holds the processor `a` -/
def process (wants : S → T → Nat → Bool) (w : World S G T) (a : Nat) (grid : G) (time : T) (step : Nat) (last : Bool) :
    Outcome (World S G T) := do
  let d : Desc G T := ⟨time, step, false, none⟩
  let d := if last then { d with force := true } else d
  let ps ← w.proc a
  .ok (runDesc wants w ps d grid)

/-- `processCatalyst`, adaptor.h:82-115 -/
def processFree (wants : S → T → Nat → Bool) (w : World S G T) (a : Nat) (grid : G) (time : T) (step : Nat)
    (last : Bool) : Outcome (World S G T) := do
  let d : Desc G T := ⟨time, step, false, none⟩
  let d := if last then { d with force := true } else d
  let d := { d with force := true }
  let ps ← w.proc a
  .ok (runDesc wants w ps d grid)

/-- `processor_->Delete()` -/
def World.delete (w : World S G T) (a : Nat) : Outcome (World S G T) := do
  let _ ← w.proc a
  .ok { w with procs := w.procs.set a none }

/-- `~adaptor_t`, adaptor.h:154-161 -/
def destroy (w : World S G T) (ptr : Option Nat) : Outcome (World S G T) :=
  match ptr with
  | none => .ok w
  | some a => w.delete a

/-- the copy constructor and the copy assignment the compiler supplies copy the pointer -/
def copyAdaptor (ptr : Option Nat) : Option Nat := ptr

/-- `finalizeAdaptor`, adaptor.h:118-130: the body ends without a `return`, which in a function with
a result is undefined -/
def finalizeAdaptor (w : World S G T) (ptr : Option Nat) : Outcome (Option Nat × World S G T) := do
  let _ ← destroy w ptr
  .ub

end

/-! ## log files -/

/-- text -/
abbrev Txt := List Char

/-- files by name -/
abbrev Files := Txt → Option Txt

/-- a name given as `const char *` ends at the first zero character -/
def cName (n : Txt) : Txt := n.takeWhile (· ≠ '\x00')

/-- `std::ofstream f(name.c_str(), std::ios::out); f << log; f.close();` -/
def writeOut (openable : Txt → Bool) (fs : Files) (name log : Txt) : Files :=
  if openable (cName name) then Function.update fs (cName name) (some ([] ++ log)) else fs

/-- the same with `std::ios::out | std::ios::app` -/
def writeApp (openable : Txt → Bool) (fs : Files) (name log : Txt) : Files :=
  if openable (cName name) then Function.update fs (cName name) (some ((fs (cName name)).getD [] ++ log)) else fs

/-- `writeLog`, insituLog.hpp:47-52 -/
def writeLog (openable : Txt → Bool) (fs : Files) (filename log : Txt) : Files :=
  writeOut openable fs (filename ++ ".log".toList) log

/-- `writeLogApp`, insituLog.hpp:54-59 -/
def writeLogApp (openable : Txt → Bool) (fs : Files) (filename log : Txt) : Files :=
  writeApp openable fs (filename ++ ".log".toList) log

/-- `writeLogNew`, insituLog.hpp:61-66 -/
def writeLogNew (openable : Txt → Bool) (fs : Files) (filename log : Txt) : Files :=
  writeOut openable fs (filename ++ ".log".toList) log

/-- `InsituLog`, insituLog.hpp:11-25 -/
structure Log where
  outputFilename : Txt
  log : Txt

/-- the default constructor, insituLog.hpp:18 -/
def Log.default : Log := ⟨"untitled.log".toList, []⟩

/-- what is done with a log object -/
inductive LogOp
  /-- `log.log << text` -/
  | insert (text : Txt)
  | setName (name : Txt)
  | clear
  | write

/-- insituLog.hpp:22-40 -/
def logStep (openable : Txt → Bool) (s : Log × Files) : LogOp → Log × Files
  | .insert t => ({ s.1 with log := s.1.log ++ t }, s.2)
  | .setName n => ({ s.1 with outputFilename := n }, s.2)
  | .clear => ({ s.1 with log := [] }, s.2)
  | .write => (s.1, writeOut openable s.2 s.1.outputFilename s.1.log)

/-- several calls, insituLog.hpp:22-40 -/
def logSteps (openable : Txt → Bool) (s : Log × Files) (ops : List LogOp) : Log × Files :=
  ops.foldl (logStep openable) s

/-- `~InsituLog`, insituLog.hpp:28-32 -/
def logEnd (s : Log × Files) : Files := s.2

end Verif.Catalyst
