import Verif.Json.Model

/-!
# Model of the parser of `ristra/io/catalyst/utils/json.hpp` with a consumer of events

`Json.Model` has the parser together with the builder of values, whose methods all return `true`.
Here the consumer is any: what it does with a call, and whether it wants the parser to go on, is a
parameter.  Positions, texts of tokens and messages, which `parse_error` is told, are left out.
-/

namespace Verif.Json

/-- a consumer of events with the state `σ`: the interface `json_sax`, json.hpp:4334-4436.  A method returns
whether to go on; it may throw.  `parse_error` "must return false" (4429): what it returns is left out. -/
structure Sax (F σ : Type) where
  on : Event F → σ → Outcome (Bool × σ)
  error : ParseError → σ → Outcome σ

/-- the variables of `sax_parse_internal`, json.hpp:8823-8829, with the token read last (9143) and the lexer -/
structure Spin (F : Type) where
  tok : Token F
  lex : Lex
  states : List Bool
  skip : Bool

/-- what one round of the loop does: it calls the consumer and, if that returns true, goes on; it calls
`parse_error` and returns false; it ends; it returns true -/
inductive Act (F : Type) where
  | call (e : Event F) (k : Act F)
  | error (e : ParseError)
  | next (m : Spin F)
  | done (lex : Lex)

/-- `get_token`, json.hpp:9105-9108 -/
def Spin.get (fl : Floats F) (m : Spin F) : Spin F :=
  { m with tok := (scanToken fl m.lex.pend).1, lex := (scanToken fl m.lex.pend).2 }

/-- the part of the loop after a value has been parsed, json.hpp:9005-9101 -/
def actStates (fl : Floats F) (m : Spin F) : Act F :=
  match m.states with
  | [] => .done m.lex
  | true :: st =>
    let m := m.get fl
    match m.tok with
    | .valueSeparator => .next (m.get fl)
    | .endArray => .call .endArray (.next { m with states := st, skip := true })
    | _ => .error .syntaxError
  | false :: st =>
    let m := m.get fl
    match m.tok with
    | .valueSeparator =>
      let m := m.get fl
      match m.tok with
      | .str k =>
        let m := m.get fl
        .call (.key k)
          (match m.tok with
          | .nameSeparator => .next (m.get fl)
          | _ => .error .syntaxError)
      | _ => .error .syntaxError
    | .endObject => .call .endObject (.next { m with states := st, skip := true })
    | _ => .error .syntaxError

/-- one round of the loop of `sax_parse_internal`, json.hpp:8831-9102.  (Where the lexer is read after a
call, it is read here before it: it does not depend on the consumer.) -/
def act (fl : Floats F) (m : Spin F) : Act F :=
  if m.skip then actStates fl { m with skip := false }
  else
    match m.tok with
    | .beginObject =>
      let m := m.get fl
      .call .startObject
        (match m.tok with
        | .endObject => .call .endObject (actStates fl m)
        | .str k =>
          let m := m.get fl
          .call (.key k)
            (match m.tok with
            | .nameSeparator => .next ({ m with states := false :: m.states }.get fl)
            | _ => .error .syntaxError)
        | _ => .error .syntaxError)
    | .beginArray =>
      let m := m.get fl
      .call .startArray
        (match m.tok with
        | .endArray => .call .endArray (actStates fl m)
        | _ => .next { m with states := true :: m.states })
    | .float x =>
      if fl.finite x then .call (.float x) (actStates fl m) else .error .numberOverflow
    | .litFalse => .call (.bool false) (actStates fl m)
    | .litNull => .call .null (actStates fl m)
    | .litTrue => .call (.bool true) (actStates fl m)
    | .int i => .call (.int i) (actStates fl m)
    | .str s => .call (.str s) (actStates fl m)
    | .uint n => .call (.uint n) (actStates fl m)
    | _ => .error .syntaxError

/-- how a round leaves the function: with the next round, with true, with false -/
inductive Left (F : Type) where
  | next (m : Spin F)
  | yes (lex : Lex)
  | no

/-- a round, with a consumer -/
def Sax.play (H : Sax F σ) : Act F → σ → Outcome (Left F × σ)
  | .call e k, st => do
    let r ← H.on e st
    if r.1 then H.play k r.2 else pure (.no, r.2)
  | .error e, st => do
    let st ← H.error e st
    pure (.no, st)
  | .next m, st => pure (.next m, st)
  | .done lex, st => pure (.yes lex, st)

/-- at most `n` rounds of the loop of `sax_parse_internal`, json.hpp:8831-9102: the lexer if it returns true -/
def Sax.loop (fl : Floats F) (H : Sax F σ) : Nat → Spin F → σ → Outcome (Option Lex × σ)
  | 0, _, _ => .diverges
  | n + 1, m, st => do
    let r ← H.play (act fl m) st
    match r.1 with
    | .next m' => Sax.loop fl H n m' r.2
    | .yes lex => pure (some lex, r.2)
    | .no => pure (none, r.2)

/-- `sax_parse_internal`, json.hpp:8823-9103, after the constructor (8715-8722) has read the first token.  The number
of rounds is bounded, see `C149_events`. -/
def Sax.internal (fl : Floats F) (H : Sax F σ) (s : Bytes) (st : σ) : Outcome (Option Lex × σ) :=
  H.loop fl (2 * s.length + 2) ⟨(scanFirst fl s).1, (scanFirst fl s).2, [], false⟩ st

/-- `parser::sax_parse`, json.hpp:8803-8818; `basic_json::sax_parse`, 20815-20824, 20901-20904, for JSON: what is returned,
and the consumer afterwards -/
def Sax.parse (fl : Floats F) (H : Sax F σ) (strict : Bool) (s : Bytes) (st : σ) : Outcome (Bool × σ) := do
  let r ← H.internal fl s st
  match r.1 with
  | none => pure (false, r.2)
  | some lex =>
    if strict then
      match (scanToken fl lex.pend).1 with
      | .eof => pure (true, r.2)
      | _ => do
        let st ← H.error .syntaxError r.2
        pure (false, st)
    else pure (true, r.2)

/-- `json_sax_acceptor`, json.hpp:4941-5008 -/
def acceptor : Sax F Unit where
  on _ st := .ok (true, st)
  error _ st := .ok st

/-- `basic_json::accept`, json.hpp:20755-20758, 20891-20894, with `parser::accept`, 8795-8799 -/
def accept (fl : Floats F) (s : Bytes) : Outcome Bool := do
  let r ← acceptor.parse fl true s ()
  pure r.1

/-- the exception an error is, json.hpp:4567-4586 -/
def ParseError.kind : ParseError → String
  | .syntaxError => "parse_error.101"
  | .numberOverflow => "out_of_range.406"

/-- `json_sax_dom_parser`, json.hpp:4455-4634, with `allow_exceptions` and `errored` -/
def builder (ex : Bool) : Sax F (Dom F × Bool) where
  on e st := match st.1.on e with
    | some d => .ok (true, (d, st.2))
    | none => .ub
  error e st := if ex then .throws e.kind else .ok (st.1, true)

/-- `parser::parse` without callback, json.hpp:8765-8786, strict, with `allow_exceptions`; `basic_json::parse`,
20746-20753: `none` is a value of type `discarded`.  (After an error without exception the next token is read
all the same; nothing depends on it.) -/
def parseEx (fl : Floats F) (ex : Bool) (s : Bytes) : Outcome (Option (Json F)) := do
  let r ← (builder ex).parse fl true s (⟨.null, [], none⟩, false)
  pure (if r.2.2 then none else some r.2.1.root)

/-! ## With a callback -/

/-- values some of which may be of type `discarded`, json.hpp:2855-2866: such a value is written as the
floating-point number `none` -/
abbrev Part (F : Type) := Json (Option F)

/-- the value of type `discarded` -/
def discarded : Part F := .float none

/-- `is_discarded`, json.hpp:16922-16925 -/
def isDiscarded : Part F → Bool
  | .float none => true
  | _ => false

/-- `parse_event_t`, json.hpp:8695-8709 -/
inductive Occasion where
  | objectStart | objectEnd | arrayStart | arrayEnd | key | value
deriving DecidableEq

/-- `parser_callback_t`, json.hpp:8711-8712: from the depth, the event and the value, whether to keep it.  The
callback may have a state, and may change the value it is given.  (It is given a copy of a key, where
a change has no effect; the change of the `discarded` value it is given at the start of an array or an
object, which would be a change of the builder, is left out.  The depth is converted to `int`, which is
left out too.) -/
abbrev Callback (F σ : Type) := Nat → Occasion → Part F → σ → Bool × Part F × σ

/-- `json_sax_dom_callback_parser`, json.hpp:4920-4937, with the state of the callback.  All stacks have the top
first; the entry `none` of `refs` is a null pointer. -/
structure Sieve (F σ : Type) where
  root : Part F
  refs : List (Option Path)
  keeps : List Bool
  keyKeeps : List Bool
  element : Option Path
  st : σ

/-- the part of `handle_value` that stores a value, json.hpp:4880-4917: where, the root, and the keys to keep -/
def place (root : Part F) (refs : List (Option Path)) (keyKeeps : List Bool) (element : Option Path)
    (v : Part F) : Outcome (Option Path × Part F × List Bool) :=
  match refs with
  | [] => .ok (some [], v, keyKeeps)
  | none :: _ => .ok (none, root, keyKeeps)
  | some p :: _ =>
    match getAt p root with
    | some (.arr xs) =>
      match setAt p (.arr (xs ++ [v])) root with
      | some root' => .ok (some (p ++ [.idx xs.length]), root', keyKeeps)
      | none => .ub
    | some (.obj _) =>
      match keyKeeps with
      | [] => .assertFail
      | false :: kk => .ok (none, root, kk)
      | true :: kk =>
        match element with
        | none => .assertFail
        | some q =>
          match setAt q v root with
          | some root' => .ok (some q, root', kk)
          | none => .ub
    | some _ => .assertFail
    | none => .ub

/-- `handle_value` with the callback, json.hpp:4857-4918 -/
def Sieve.value (cb : Callback F σ) (d : Sieve F σ) (v : Part F) : Outcome (Sieve F σ) :=
  match d.keeps with
  | [] => .assertFail
  | false :: _ => .ok d
  | true :: _ =>
    let r := cb d.refs.length .value v d.st
    if r.1 then do
      let x ← place d.root d.refs d.keyKeeps d.element r.2.1
      pure { d with root := x.2.1, keyKeeps := x.2.2, st := r.2.2 }
    else .ok { d with st := r.2.2 }

/-- `start_object` and `start_array`, json.hpp:4698-4714, 4762-4777, with `handle_value` without the callback.  The
number of elements is not known (-1), so that no limit is checked. -/
def Sieve.start (cb : Callback F σ) (d : Sieve F σ) (o : Occasion) (v : Part F) : Outcome (Sieve F σ) :=
  let r := cb d.refs.length o discarded d.st
  if r.1 then do
    let x ← place d.root d.refs d.keyKeeps d.element v
    pure { d with root := x.2.1, refs := x.1 :: d.refs, keeps := true :: d.keeps, keyKeeps := x.2.2, st := r.2.2 }
  else .ok { d with refs := none :: d.refs, keeps := false :: d.keeps, st := r.2.2 }

/-- the calling of the callback at the end of an array or an object, json.hpp:4735-4739, 4783-4791: whether it is kept, the
root and the state of the callback -/
def Sieve.finish (cb : Callback F σ) (d : Sieve F σ) (o : Occasion) : Outcome (Bool × Part F × σ) :=
  match d.refs with
  | [] => .ub
  | none :: _ => .ok (true, d.root, d.st)
  | some p :: rs =>
    match getAt p d.root with
    | none => .ub
    | some v =>
      let r := cb rs.length o v d.st
      match setAt p (if r.1 then r.2.1 else discarded) d.root with
      | none => .ub
      | some root => .ok (r.1, root, r.2.2)

/-- the loop that erases the first member that is discarded, json.hpp:4749-4756 -/
def dropFirst : List (Bytes × Part F) → List (Bytes × Part F)
  | [] => []
  | (k, v) :: ms => if isDiscarded v then ms else (k, v) :: dropFirst ms

/-- the end of `end_object`, json.hpp:4743-4757, after an object has ended within `refs` -/
def sweep (refs : List (Option Path)) (root : Part F) : Outcome (Part F) :=
  match refs with
  | some p :: _ =>
    match getAt p root with
    | some (.obj ms) =>
      match setAt p (.obj (dropFirst ms)) root with
      | some root' => .ok root'
      | none => .ub
    | some _ => .ok root
    | none => .ub
  | _ => .ok root

/-- the end of `end_array`, json.hpp:4795-4802, after an array has ended within `refs` and is not kept -/
def unpush (refs : List (Option Path)) (root : Part F) : Outcome (Part F) :=
  match refs with
  | [] => .ok root
  | none :: _ => .ub
  | some p :: _ =>
    match getAt p root with
    | some (.arr xs) =>
      if xs = [] then .ub
      else match setAt p (.arr xs.dropLast) root with
      | some root' => .ok root'
      | none => .ub
    | some _ => .ok root
    | none => .ub

/-- the methods of `json_sax_dom_callback_parser`, json.hpp:4662-4805 -/
def Sieve.on (cb : Callback F σ) (d : Sieve F σ) : Event F → Outcome (Sieve F σ)
  | .null => d.value cb .null
  | .bool b => d.value cb (.bool b)
  | .int i => d.value cb (.int i)
  | .uint n => d.value cb (.uint n)
  | .float x => d.value cb (.float (some x))
  | .str s => d.value cb (.str s)
  | .startObject => d.start cb .objectStart (.obj [])
  | .startArray => d.start cb .arrayStart (.arr [])
  | .key k =>
    let r := cb d.refs.length .key (.str k) d.st
    match d.refs with
    | [] => if r.1 then .ub else .ok { d with keyKeeps := r.1 :: d.keyKeeps, st := r.2.2 }
    | none :: _ => .ok { d with keyKeeps := r.1 :: d.keyKeeps, st := r.2.2 }
    | some p :: _ =>
      if r.1 then
        match getAt p d.root with
        | some (.obj ms) =>
          match setAt p (.obj (setKey k discarded ms)) d.root with
          | some root =>
            .ok { d with root := root, keyKeeps := r.1 :: d.keyKeeps, element := some (p ++ [.key k]), st := r.2.2 }
          | none => .ub
        | _ => .ub
      else .ok { d with keyKeeps := r.1 :: d.keyKeeps, st := r.2.2 }
  | .endObject => do
    let r ← d.finish cb .objectEnd
    match d.keeps with
    | [] => .assertFail
    | _ :: ks => do
      let root ← sweep d.refs.tail r.2.1
      pure { d with root := root, refs := d.refs.tail, keeps := ks, st := r.2.2 }
  | .endArray => do
    let r ← d.finish cb .arrayEnd
    match d.keeps with
    | [] => .assertFail
    | _ :: ks => do
      let root ← if r.1 then pure r.2.1 else unpush d.refs.tail r.2.1
      pure { d with root := root, refs := d.refs.tail, keeps := ks, st := r.2.2 }

/-- `json_sax_dom_callback_parser` with `allow_exceptions` and `errored`, json.hpp:4807-4838 -/
def sieve (cb : Callback F σ) (ex : Bool) : Sax F (Sieve F σ × Bool) where
  on e st := do
    let d ← st.1.on cb e
    pure (true, (d, st.2))
  error e st := if ex then .throws e.kind else .ok (st.1, true)

/-- `parser::parse` with a callback, json.hpp:8734-8764, strict; `basic_json::parse`, 20746-20753: the value, and the callback
afterwards -/
def parseCb (fl : Floats F) (cb : Callback F σ) (ex : Bool) (s : Bytes) (st : σ) : Outcome (Part F × σ) := do
  let r ← (sieve cb ex).parse fl true s (⟨.null, [], [true], [], none, st⟩, false)
  pure (if r.2.2 then discarded else if isDiscarded r.2.1.root then .null else r.2.1.root, r.2.1.st)

end Verif.Json
