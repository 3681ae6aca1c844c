import Mathlib.Order.Defs.LinearOrder
import Verif.Common.Outcome

/-!
# Model of `ristra/initialization/arguments.h`

The registry of command line options and the processing of the command line.  The parser
itself (`boost::program_options`) is a parameter.  `K` is the type of keys with the order of
the `std::map`.
-/

namespace Verif.Arguments

/-- one option: flag, help text, whether it takes a value (arguments.h:95 and 113) -/
structure Opt where
  flag : String
  message : String
  value : Bool
deriving DecidableEq

/-- `boost::program_options::options_description`: caption and options in order -/
structure Group where
  title : String
  options : List Opt
deriving DecidableEq

variable {K : Type} [LinearOrder K]

/-- `std::map<std::string, options_description>`, arguments.h:52, in key order -/
abbrev Descs (K : Type) := List (K × Group)

/-- find the key, or its place, and put there `f` of what was found -/
def upsert (k : K) (f : Option Group → Group) : Descs K → Descs K
  | [] => [(k, f none)]
  | (k', g) :: r =>
    if k < k' then (k, f none) :: (k', g) :: r
    else if k = k' then (k', f (some g)) :: r
    else (k', g) :: upsert k f r

/-- `register_group`, arguments.h:75-81: `emplace` leaves an entry that is there; the answer is
always `true` -/
def registerGroup (d : Descs K) (k : K) (title : String) : Descs K × Bool :=
  (upsert k (fun
    | none => ⟨title, []⟩
    | some g => g) d, true)

/-- `register_argument`, arguments.h:85-98 (no value) and 101-116 (with a value): `operator[]`
makes a group without a caption when there is none -/
def registerArgument (d : Descs K) (k : K) (o : Opt) : Descs K × Bool :=
  (upsert k (fun
    | none => ⟨"", [o]⟩
    | some g => { g with options := g.options ++ [o] }) d, true)

/-- the groups handed to the parser, arguments.h:128-131 and 166-169 -/
def cmdline (d : Descs K) : List Group := d.map Prod.snd

/-- what `boost` can do: parse, complain with a `po::error`, or throw something else -/
inductive Parsed (V : Type) where
  | ok (vm : V)
  | poError (vm : V) (what : String)
  | other (kind : String)

/-- something printed -/
inductive Printed where
  /-- to `std::cerr`: message, program, groups -/
  | usageError (what : String) (program : String) (groups : List Group)
  /-- to `std::cout`: program, groups -/
  | usage (program : String) (groups : List Group)
deriving DecidableEq

/-- what `process_arguments` leaves: the variables, the error flag, the text printed, the
program name kept in `program_name_` -/
structure Result (V : Type) where
  vm : V
  error : Bool
  printed : List Printed
  program : String

/-- `process_arguments`, arguments.h:121-160.  `hasHelp` is `vm.count("help")`.  Simplification: an
exception that is no `po::error` leaves the function as it is. -/
def processArguments {V : Type} (parser : List Group → List String → Parsed V) (hasHelp : V → Bool)
    (d : Descs K) (argv : List String) (print : Bool) : Outcome (Result V) :=
  match argv with
  | [] => .ub            -- `argv[0]` is a null pointer, line 126
  | prog :: _ =>
    match parser (cmdline d) argv with
    | .ok vm => .ok ⟨vm, false, if hasHelp vm && print then [.usage prog (cmdline d)] else [], prog⟩
    | .poError vm what => .ok ⟨vm, true, if print then [.usageError what prog (cmdline d)] else [], prog⟩
    | .other k => .throws k

/-- `print_missing_argument`, arguments.h:162-178: the name asked for, the program name remembered
(empty before `process_arguments`), the groups -/
def printMissing (d : Descs K) (program arg : String) : String × String × List Group := (arg, program, cmdline d)

/-! ## `command_line_variables_t`, lines 20-44 -/

/-- the parsed variables: a name has a value of some type -/
abbrev Vars (T : Type) (Val : T → Type) := String → Option ((t : T) × Val t)

/-- `as<T>`, arguments.h:30-37; the conversion of a value of another type throws -/
def asT {T : Type} [DecidableEq T] {Val : T → Type} (vm : Vars T Val) (name : String) (t : T) (dflt : Val t) :
    Outcome (Val t) :=
  match vm name with
  | none => .ok dflt
  | some ⟨t', v⟩ => if h : t' = t then .ok (h ▸ v) else .throws "bad_any_cast"

/-- `count`, arguments.h:39-42 -/
def count {T : Type} {Val : T → Type} (vm : Vars T Val) (name : String) : Nat := if (vm name).isSome then 1 else 0

end Verif.Arguments
