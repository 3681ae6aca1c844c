import Verif.Common.Outcome
import Mathlib.Data.Finset.Sort
import Mathlib.Logic.Function.Basic

/-!
# Model of `ristra/initialization/`: input_engine.h, input_source.h, init_value.h, input.h

Keys are elements of a linearly ordered type `K` (the code: `std::string`, ordered as in
`std::map` and `std::set`).  Value types are the elements of `Ty`, `Val τ` the values of type
`τ`; a registry per type is the singleton `input_registry<T>` (input_engine.h:118-123), and
likewise the hard-coded data (input_source.h:48-61): both are shared by all engines and sources
of the program, so the state below is that of the program, not of one object.

What Lua does is a parameter: `index l k` is `l[k]` followed by `empty()`, `as τ l` the
conversion `as<T>()`; see `Verif.Lua` for these.  A moved-from value is a parameter too: `moved τ
v` is what is left in a variable of type `τ` that held `v`; C++ fixes it only for trivial types,
where it is `v`.

Exceptions leave the singletons as they are at that point, so an operation returns its outcome
together with the state.

Not modelled: `print_registered_types` and the `printf` for a repeated target.  The report of
`print_unresolved_types_`, the macros behind it and the deletion of replaced sources are in
`Verif.InputEngine.ByTuple`.  `get_size`, `get_table`, `get_lua_result_raw` and the real Lua stack
behind a source are in `Verif.Deck.Model`.
-/

namespace Verif.InputEngine

/-- what the engine is built on -/
structure Env (K Ty L : Type) (Val : Ty → Type) where
  /-- `τ` is a `std::function` type: the specializations at input_engine.h:477-526, 571-602 -/
  isFun : Ty → Bool
  /-- what moving out of a variable leaves there -/
  moved : ∀ τ, Val τ → Val τ
  /-- `lua_val.as<T>()`; for function types, wrapping the result -/
  as : ∀ τ, L → Outcome (Val τ)
  /-- `from_table[key]`, `none` when `empty()` -/
  index : L → K → Outcome (Option L)

/-- `input_registry<T>`, input_engine.h:94-140 -/
structure TypeState (K T : Type) where
  reg : K → Option T
  targets : Finset K
  failed : Finset K
  resolveCalled : Bool
  allResolved : Bool

/-- `lua_source_t`, input_source.h:162-373 -/
structure LuaSource (K L : Type) where
  /-- `m_table_map` -/
  tableMap : K → Option K
  /-- `m_lua_key` -/
  luaKey : K → Option K
  /-- `m_tables` -/
  tables : K → Option L

/-- the program: all registries, the hard-coded data, and the sources of one engine; input_engine.h:94-140, 606-608 -/
structure Engine (K Ty L : Type) (Val : Ty → Type) where
  st : ∀ τ, TypeState K (Val τ)
  hcData : ∀ τ, K → Option (Val τ)
  /-- `m_lua_source` -/
  lua : Option (LuaSource K L)
  /-- `m_hard_coded_source` is not null -/
  hc : Bool

variable {K Ty L : Type} {Val : Ty → Type} [LinearOrder K] [DecidableEq Ty]

/-- a program that has done nothing yet -/
def fresh : Engine K Ty L Val :=
  { st := fun _ => { reg := fun _ => none, targets := ∅, failed := ∅, resolveCalled := false, allResolved := false }
    hcData := fun _ _ => none, lua := none, hc := false }

/-! ## the Lua source -/

/-- the exception a missing table or key gives: `std::map::at` throws `std::out_of_range`; in the
general getter (input_source.h:272-303) it is caught as `std::exception &` and rethrown by `throw x`, which
slices it -/
def missing (isFun : Bool) : Outcome α := if isFun then .outOfRange else .throws "exception"

/-- exceptions from within the inner `try` are sliced the same way -/
def slice (isFun : Bool) (o : Outcome α) : Outcome α :=
  match o with
  | .throws k => if isFun then .throws k else .throws "exception"
  | .outOfRange => if isFun then .outOfRange else .throws "exception"
  | o => o

/-- `lua_source_t::get_value`, input_source.h:272-303 and 381-400: `none` is a false result -/
def LuaSource.get (env : Env K Ty L Val) (ls : LuaSource K L) (τ : Ty) (k : K) : Outcome (Option (Val τ)) :=
  let lKey := (ls.luaKey k).getD k
  match ls.tableMap k with
  | none => missing (env.isFun τ)
  | some fromName =>
    match ls.tables fromName with
    | none => missing (env.isFun τ)
    | some tbl =>
      slice (env.isFun τ) (do
        match ← env.index tbl lKey with
        | none => return none
        | some v => return some (← env.as τ v))

/-- `register_value`, input_source.h:210-223 (`lua_key` empty means not given) -/
def LuaSource.registerValue (ls : LuaSource K L) (key tName : K) (luaKey : Option K) : Bool × LuaSource K L :=
  ((ls.tableMap key).isSome,
    { ls with
      tableMap := Function.update ls.tableMap key (some tName)
      luaKey := match luaKey with
        | some l => Function.update ls.luaKey key (some l)
        | none => ls.luaKey })

/-- `load_table`, input_source.h:344-356; `base` are the global variables of the Lua file and `baseState` the
string "base_state".  `emplace` does not replace a table already loaded -/
def LuaSource.loadTable (env : Env K Ty L Val) (baseState : K) (base : K → Option L) (ls : LuaSource K L)
    (name : K) : Outcome (LuaSource K L) :=
  let emplace (l : L) : LuaSource K L :=
    match ls.tables name with
    | some _ => ls
    | none => { ls with tables := Function.update ls.tables name (some l) }
  match ls.tableMap name with
  | none => .outOfRange
  | some fromName =>
    if fromName = baseState then
      match base name with
      | none => .throws "runtime_error"
      | some l => .ok (emplace l)
    else
      match ls.tables fromName with
      | none => .outOfRange
      | some t => do
        match ← env.index t name with
        | none => .throws "runtime_error"
        | some l => return emplace l

/-- `register_table`, input_source.h:233-239 -/
def LuaSource.registerTable (env : Env K Ty L Val) (baseState : K) (base : K → Option L) (ls : LuaSource K L)
    (tName pName : K) (luaKey : Option K) : Outcome (Bool × LuaSource K L) := do
  let (replaced, ls) := ls.registerValue tName pName luaKey
  let ls ← ls.loadTable env baseState base tName
  return (replaced, ls)

/-! ## the engine -/

/-- one type's part of the state and of the hard-coded data; input_engine.h:107-109 -/
structure Slot (K T : Type) where
  st : TypeState K T
  hcData : K → Option T

/-- what one pass of the loop body did; input_engine.h:434-453 -/
inductive Found
  | yes
  | no
deriving DecidableEq

/-- the body of the loop in `resolve_inputs_`, input_engine.h:434-453, and of its specialization
for functions, 489-517; also `resolve_input_`, 533-558 and 571-602, which differ only in not
recording the failure -/
def lookup (env : Env K Ty L Val) (lua : Option (LuaSource K L)) (hc : Bool) (τ : Ty) (k : K)
    (s : Slot K (Val τ)) : Slot K (Val τ) × Outcome Found :=
  let tryHc (_ : Unit) : Slot K (Val τ) × Outcome Found :=
    if hc then
      match s.hcData k with
      | none => (s, .ok .no)
      | some v =>
        -- `t = std::move(it->second)`
        let hcData := Function.update s.hcData k (some (env.moved τ v))
        -- `the_registry[target] = std::move(tval)`, but `insert` for functions
        let reg := if env.isFun τ && (s.st.reg k).isSome then s.st.reg else Function.update s.st.reg k (some v)
        ({ st := { s.st with reg := reg }, hcData := hcData }, .ok .yes)
    else (s, .ok .no)
  match lua with
  | none => tryHc ()
  | some ls =>
    match ls.get env τ k with
    | .ok (some v) => ({ s with st := { s.st with reg := Function.update s.st.reg k (some v) } }, .ok .yes)
    | .ok none => tryHc ()
    | .assertFail => (s, .assertFail)
    | .outOfRange => (s, .outOfRange)
    | .throws e => (s, .throws e)
    | .ub => (s, .ub)
    | .diverges => (s, .diverges)

/-- `for (auto target : targets)`: the result is `missed_any`; input_engine.h:432-454 -/
def resolveLoop (env : Env K Ty L Val) (lua : Option (LuaSource K L)) (hc : Bool) (τ : Ty) :
    List K → Bool → Slot K (Val τ) → Slot K (Val τ) × Outcome Bool
  | [], missed, s => (s, .ok missed)
  | k :: ks, missed, s =>
    match lookup env lua hc τ k s with
    | (s, .ok .yes) => resolveLoop env lua hc τ ks missed s
    | (s, .ok .no) =>
      resolveLoop env lua hc τ ks true { s with st := { s.st with failed := insert k s.st.failed } }
    | (s, .assertFail) => (s, .assertFail)
    | (s, .outOfRange) => (s, .outOfRange)
    | (s, .throws e) => (s, .throws e)
    | (s, .ub) => (s, .ub)
    | (s, .diverges) => (s, .diverges)

/-- `resolve_inputs_<T>`, input_engine.h:423-462 and 477-526: all targets of one type -/
def resolveType (env : Env K Ty L Val) (lua : Option (LuaSource K L)) (hc : Bool) (τ : Ty)
    (s : Slot K (Val τ)) : Slot K (Val τ) × Outcome Bool :=
  match resolveLoop env lua hc τ (s.st.targets.sort (· ≤ ·)) false s with
  | (s, .ok missed) =>
    ({ s with st := { s.st with allResolved := s.st.allResolved || !missed, resolveCalled := true } }, .ok (!missed))
  | (s, .assertFail) => (s, .assertFail)
  | (s, .outOfRange) => (s, .outOfRange)
  | (s, .throws e) => (s, .throws e)
  | (s, .ub) => (s, .ub)
  | (s, .diverges) => (s, .diverges)

/-- one type's slot of the program -/
def Engine.slot (e : Engine K Ty L Val) (τ : Ty) : Slot K (Val τ) := ⟨e.st τ, e.hcData τ⟩

/-- and writing it back -/
def Engine.setSlot (e : Engine K Ty L Val) (τ : Ty) (s : Slot K (Val τ)) : Engine K Ty L Val :=
  { e with st := Function.update e.st τ s.st, hcData := Function.update e.hcData τ s.hcData }

/-- `resolve_inputs__by_tuple`, inputs_impl.h:125-148: the types of the tuple, in order; the
results are collected in a deque -/
def resolveTypes (env : Env K Ty L Val) : List Ty → Engine K Ty L Val → Engine K Ty L Val × Outcome (List Bool)
  | [], e => (e, .ok [])
  | τ :: τs, e =>
    match resolveType env e.lua e.hc τ (e.slot τ) with
    | (s, .ok b) =>
      match resolveTypes env τs (e.setSlot τ s) with
      | (e, .ok bs) => (e, .ok (b :: bs))
      | r => r
    | (s, .assertFail) => (e.setSlot τ s, .assertFail)
    | (s, .outOfRange) => (e.setSlot τ s, .outOfRange)
    | (s, .throws x) => (e.setSlot τ s, .throws x)
    | (s, .ub) => (e.setSlot τ s, .ub)
    | (s, .diverges) => (e.setSlot τ s, .diverges)

/-- `resolve_inputs()`, input_engine.h:174-184: `std::accumulate` of `&&` from `true` -/
def resolveInputs (env : Env K Ty L Val) (tys : List Ty) (e : Engine K Ty L Val) : Engine K Ty L Val × Outcome Bool :=
  match resolveTypes env tys e with
  | (e, .ok bs) => (e, .ok (bs.foldl (· && ·) true))
  | (e, .assertFail) => (e, .assertFail)
  | (e, .outOfRange) => (e, .outOfRange)
  | (e, .throws x) => (e, .throws x)
  | (e, .ub) => (e, .ub)
  | (e, .diverges) => (e, .diverges)

/-- `register_target<T>`, input_engine.h:237-249 -/
def registerTarget (τ : Ty) (k : K) (e : Engine K Ty L Val) : Engine K Ty L Val :=
  { e with st := Function.update e.st τ { e.st τ with targets := insert k (e.st τ).targets } }

/-- `get_value<T>`, input_engine.h:268-275 and the getters, 381-416 -/
def getValue (τ : Ty) (k : K) (e : Engine K Ty L Val) : Outcome (Val τ) :=
  match (e.st τ).reg k with
  | some v => .ok v
  | none => .throws "domain_error"

/-- `resolved<T>`, input_engine.h:278-290 -/
def resolved (τ : Ty) (k : K) (e : Engine K Ty L Val) : Bool :=
  (e.st τ).resolveCalled && ((e.st τ).reg k).isSome

/-- `get_instant_value<T>`, input_engine.h:306-319 (`Insist(false, ..)` throws) -/
def getInstantValue (env : Env K Ty L Val) (τ : Ty) (k : K) (e : Engine K Ty L Val) :
    Engine K Ty L Val × Outcome (Val τ) :=
  match lookup env e.lua e.hc τ k (e.slot τ) with
  | (s, .ok .yes) => (e.setSlot τ s, getValue τ k (e.setSlot τ s))
  | (s, .ok .no) => (e.setSlot τ s, .throws "runtime_error")
  | (s, .assertFail) => (e.setSlot τ s, .assertFail)
  | (s, .outOfRange) => (e.setSlot τ s, .outOfRange)
  | (s, .throws x) => (e.setSlot τ s, .throws x)
  | (s, .ub) => (e.setSlot τ s, .ub)
  | (s, .diverges) => (e.setSlot τ s, .diverges)

/-- `clear_registry()`, input_engine.h:163 with 347-351 and 111-116: the flags are not reset -/
def clearRegistry (tys : List Ty) (e : Engine K Ty L Val) : Engine K Ty L Val :=
  { e with st := fun τ => if τ ∈ tys then { e.st τ with reg := fun _ => none, targets := ∅, failed := ∅ } else e.st τ }

/-- `hard_coded_source_t::set_registry<T>`, input_source.h:114-121 -/
def setHardCoded (τ : Ty) (entries : List (K × Val τ)) (e : Engine K Ty L Val) : Engine K Ty L Val :=
  let data : K → Option (Val τ) := entries.foldl (fun (m : K → Option (Val τ)) p => Function.update m p.1 (some p.2)) (e.hcData τ)
  { e with hcData := Function.update e.hcData τ data }

/-- `register_lua_source`, input_engine.h:190-194 -/
def registerLuaSource (ls : LuaSource K L) (e : Engine K Ty L Val) : Engine K Ty L Val := { e with lua := some ls }

/-- `register_hard_coded_source`, input_engine.h:201-204 -/
def registerHardCodedSource (e : Engine K Ty L Val) : Engine K Ty L Val := { e with hc := true }

/-! ## init_value.h -/

/-- `init_val_status_t`, init_value.h:15-22 -/
inductive Status
  | unregistered
  | registered
  | resolveFailed
  | initialized
  | invalid
  | valid
deriving DecidableEq, Repr

/-- `init_value_t<T>`: the type, the full name, the validator and the status; init_value.h:34-161 -/
structure InitValue (K T : Type) where
  key : K
  validator : T → Bool
  status : Status

/-- the constructor and `register_val`, init_value.h:128-146 -/
def InitValue.mk' (τ : Ty) (key : K) (validator : Val τ → Bool) (e : Engine K Ty L Val) :
    InitValue K (Val τ) × Engine K Ty L Val :=
  (⟨key, validator, .registered⟩, registerTarget τ key e)

/-- `get()`, init_value.h:58-84 -/
def InitValue.get {τ : Ty} (iv : InitValue K (Val τ)) (e : Engine K Ty L Val) :
    InitValue K (Val τ) × Outcome (Val τ) :=
  let rest (iv : InitValue K (Val τ)) : InitValue K (Val τ) × Outcome (Val τ) :=
    match getValue τ iv.key e with
    | .ok t => if iv.validator t then ({ iv with status := .valid }, .ok t)
      else ({ iv with status := .invalid }, .throws "runtime_error")
    | o => (iv, o)
  if iv.status = .registered then
    if resolved τ iv.key e then rest { iv with status := .initialized }
    else ({ iv with status := .resolveFailed }, .throws "runtime_error")
  else rest iv

/-- `resolved()`, init_value.h:89-98 (`Require` may be switched off; the status is never `unregistered`) -/
def InitValue.resolved {τ : Ty} (iv : InitValue K (Val τ)) (e : Engine K Ty L Val) : InitValue K (Val τ) × Bool :=
  if Verif.InputEngine.resolved τ iv.key e then ({ iv with status := .initialized }, true) else (iv, false)

/-- `valid()`, init_value.h:101-118 -/
def InitValue.valid {τ : Ty} (iv : InitValue K (Val τ)) (e : Engine K Ty L Val) :
    InitValue K (Val τ) × Outcome Bool :=
  if iv.status = .valid then (iv, .ok true)
  else if iv.status = .invalid then (iv, .ok false)
  else
    match iv.resolved e with
    | (iv, false) => (iv, .ok false)
    | (iv, true) =>
      match getValue τ iv.key e with
      | .ok t => ({ iv with status := if iv.validator t then .valid else .invalid }, .ok (iv.validator t))
      | .assertFail => (iv, .assertFail)
      | .outOfRange => (iv, .outOfRange)
      | .throws x => (iv, .throws x)
      | .ub => (iv, .ub)
      | .diverges => (iv, .diverges)

/-- `full_name()`, init_value.h:148-154 -/
def fullName (nmspace name : List Char) : List Char := if nmspace = [] then name else nmspace ++ ':' :: name

/-! ## input.h -/

/-- the key of a parameter, input.h:181 -/
def paramKey (key varName : List Char) : List Char := key ++ '?' :: varName

/-- `types_t`, input.h:55-60 -/
inductive ParamType
  | size
  | float
  | double
  | string
deriving DecidableEq, Repr

/-- a default value, by its object representation: `size_t` and `double` have 8 bytes, `float` 4 -/
inductive Default
  | size (x : BitVec 64)
  | float (x : BitVec 32)
  | double (x : BitVec 64)
  | string (s : List (BitVec 8))
deriving DecidableEq

/-- the bytes of a value in memory, lowest first (little endian) -/
def bytesOf (n : Nat) (x : Nat) : List (BitVec 8) := (List.range n).map fun i => BitVec.ofNat 8 (x / 256 ^ i)

/-- the conversion to a byte vector, input.h:151-177 -/
def encode : Default → List (BitVec 8) × ParamType
  | .string s => (s, .string)
  | .size x => (bytesOf 8 x.toNat, .size)
  | .float x => (bytesOf 4 x.toNat, .float)
  | .double x => (bytesOf 8 x.toNat, .double)

/-- `inputs_`; input.h:70-73 -/
abbrev Params := List Char → Option (List Char × List (BitVec 8) × ParamType)

/-- `register_parameter`, input.h:139-185: `emplace` -/
def registerParameter (key varName message : List Char) (d : Default) (p : Params) : Params :=
  match p (paramKey key varName) with
  | some _ => p
  | none => Function.update p (paramKey key varName) (some (message, (encode d).1, (encode d).2))

end Verif.InputEngine
