import Verif.Strings.Model

/-!
# Model of the texts of `ristra/assertions/errors.h`, `here.h` and `exceptions.h`

What a use of a macro writes to the two streams and how it leaves.  `__FILE__`, `__FUNCTION__`
and `__LINE__` are a `Loc`.  The message is the text its insertions into the stream write.
-/

namespace Verif.Macros
open Verif.Strings

/-- where a macro is used -/
structure Loc where
  file : Str
  func : Str
  line : Nat
deriving DecidableEq

/-- `RISTRA_HERE`, here.h:16-17: `__FILE__ << " :: " << __FUNCTION__ << " :: L" << __LINE__` -/
def ristraHere (l : Loc) : Str := l.file ++ [' ', ':', ':', ' '] ++ l.func ++ [' ', ':', ':', ' ', 'L'] ++ decimal l.line

/-- what `printf` writes for `%s` of `s.c_str()`: up to the first null character -/
def cstr (s : Str) : Str := s.takeWhile (· ≠ '\x00')

/-- `here_func`, here.h:30-34: `printf("HERE %s:%s:%d %s\n", fname, filename, line, s.c_str());` -/
def hereFunc (l : Loc) (s : Str) : Str :=
  ['H', 'E', 'R', 'E', ' '] ++ cstr l.func ++ [':'] ++ cstr l.file ++ [':'] ++ decimal l.line ++ [' '] ++ cstr s ++ ['\n']

/-- `here_str_func`, here.h:36-42 -/
def hereStr (l : Loc) (s : Str) : Str := l.file ++ [':'] ++ l.func ++ [':'] ++ decimal l.line ++ [' '] ++ s

/-- the classes of exceptions.h that the macros throw -/
inductive Kind
  | runTime
  | logic
  | fileError
  | notImplemented
deriving DecidableEq, Repr

/-- how the use of a macro ends: control goes on, an exception of a class with a text, or
`std::abort()` -/
inductive Leave
  | goesOn
  | throws (k : Kind) (what : Str)
  | aborts
deriving DecidableEq

/-- all that a use of a macro does -/
structure Effect where
  err : Str
  out : Str
  leave : Leave
deriving DecidableEq

/-- exceptions.h:56: what precedes the file name -/
def fileText : Str := "error accessing file: ".toList

/-- the texts given to `std::runtime_error` and `std::logic_error`, exceptions.h:26-60; the
one for files is `"error accessing file: " + filename` -/
def Kind.what (k : Kind) (filename : Str) : Str :=
  match k with
  | .runTime => "general runtime error".toList
  | .logic => "error in internal logic".toList
  | .notImplemented => "error, not implemented".toList
  | .fileError => fileText ++ filename

/-- `THROW_EXCEPTION`, errors.h:24-28: `exceptions` is `RISTRA_ENABLE_EXCEPTIONS` -/
def throwException (exceptions : Bool) (k : Kind) (filename : Str) : Leave :=
  if exceptions then .throws k (k.what filename) else .aborts

/-- `THROW_RUNTIME_ERROR`, `THROW_LOGIC_ERROR`, `THROW_IMPLEMENTED_ERROR`, errors.h:35-40,
47-52, 69-74, and `THROW_FILE_ERROR`, errors.h:58-62, whose argument is the file name and which
does not print it -/
def raiseError (exceptions : Bool) (l : Loc) (k : Kind) (msg : Str) : Effect :=
  { err := ristraHere l ++ ['\n'] ++ (if k = .fileError then [] else msg ++ ['\n'])
    out := []
    leave := throwException exceptions k msg }

/-- `assert_true`, errors.h:81-83, the text as it is there -/
def assertTrue (exceptions : Bool) (l : Loc) (cond : Bool) (msg : Str) : Effect :=
  if !cond then raiseError exceptions l .runTime ("Assertion falied: ".toList ++ msg)
  else { err := [], out := [], leave := .goesOn }

/-- `short_warning`, errors.h:89-90 -/
def shortWarning (msg : Str) : Effect :=
  { err := [], out := "Warning ==> ".toList ++ msg ++ ['\n'], leave := .goesOn }

end Verif.Macros
