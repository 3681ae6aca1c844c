import Verif.Json.SaxModel

/-!
# Model of `operator>>` of `ristra/io/catalyst/utils/json.hpp`: the value when reading fails

`extract` in `Json.Model` has what is read.  Here is what the value read into is afterwards, also if an
exception has been thrown: the builder works on the value itself (json.hpp:4469, 4625).
-/

namespace Verif.Json

/-- `json_sax_dom_parser` with exceptions, json.hpp:4455-4634, up to the exception: `parse_error` (4560-4586) changes
nothing but `errored` before it throws, and what it throws ends `sax_parse_internal` -/
def tornBuilder : Sax F (Dom F × Option String) where
  on e st := match st.1.on e with
    | some d => .ok (true, (d, st.2))
    | none => .ub
  error e st := .ok (st.1, some e.kind)

/-- `operator>>`, json.hpp:20945-20949, with `parser::parse`, 8734-8787, not strict: the value read into,
afterwards, and the exception, if one has been thrown -/
def readInto (fl : Floats F) (old : Json F) (s : Bytes) : Outcome (Json F × Option String) := do
  let r ← tornBuilder.internal fl s (⟨old, [], none⟩, none)
  pure (r.2.1.root, r.2.2)

end Verif.Json
