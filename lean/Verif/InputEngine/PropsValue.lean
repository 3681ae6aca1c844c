import Verif.InputEngine.Props

/-!
# C53, C54, C70, C71: names, initialization values, parameters, Lua tables
-/

namespace Verif.InputEngine

/-! ## C53 -/

/-- C53 is false: a colon in a name lets two different inputs share one registry entry -/
theorem C53_names_fails :
    ∃ ns n ns' n' : List Char, (ns, n) ≠ (ns', n') ∧ fullName ns n = fullName ns' n' ∧
      ns ≠ [] ∧ n ≠ [] ∧ ns' ≠ [] ∧ n' ≠ [] :=
  ⟨['a'], ['b', ':', 'c'], ['a', ':', 'b'], ['c'], by decide, by decide, by decide, by decide, by decide, by decide⟩

theorem split_at_sep {sep : Char} {a a' b b' : List Char} (ha : sep ∉ a) (ha' : sep ∉ a')
    (h : a ++ sep :: b = a' ++ sep :: b') : a = a' ∧ b = b' := by
  induction a generalizing a' with
  | nil =>
    cases a' with
    | nil => simpa using h
    | cons c a' =>
      simp only [List.nil_append, List.cons_append, List.cons.injEq] at h
      exact absurd (by simp [h.1]) ha'
  | cons c a ih =>
    cases a' with
    | nil =>
      simp only [List.nil_append, List.cons_append, List.cons.injEq] at h
      exact absurd (by simp [h.1]) ha
    | cons c' a' =>
      simp only [List.cons_append, List.cons.injEq] at h
      have := ih (fun hm => ha (by simp [hm])) (fun hm => ha' (by simp [hm])) h.2
      exact ⟨by rw [h.1, this.1], this.2⟩

/-- C53 as far as it holds: namespaces without a colon, and no colon in names that have no
namespace.  (Missing: the other names, see `C53_names_fails`.) -/
theorem C53_names_partial (ns n ns' n' : List Char) (h1 : ':' ∉ ns) (h1' : ':' ∉ ns')
    (h2 : ns = [] → ':' ∉ n) (h2' : ns' = [] → ':' ∉ n') (h : fullName ns n = fullName ns' n') : ns = ns' ∧ n = n' := by
  rw [fullName, fullName] at h
  by_cases e : ns = [] <;> by_cases e' : ns' = []
  · simp only [e, e', if_true] at h ⊢
    exact ⟨trivial, h⟩
  · rw [if_pos e, if_neg e'] at h
    exact absurd (by rw [h]; simp) (h2 e)
  · rw [if_neg e, if_pos e'] at h
    exact absurd (by rw [← h]; simp) (h2' e')
  · rw [if_neg e, if_neg e'] at h
    exact split_at_sep h1 h1' h

/-- a name with colons, in a namespace without -/
example (n : List Char) (h : fullName ['a'] ['b', ':', 'c'] = fullName ['a'] n) : ['b', ':', 'c'] = n :=
  (C53_names_partial ['a'] ['b', ':', 'c'] ['a'] n (by decide) (by decide) (by decide) (by simp) h).2

/-- C53 for registered parameters: false in general -/
theorem C53_parameters_fails :
    ∃ k v k' v' : List Char, (k, v) ≠ (k', v') ∧ paramKey k v = paramKey k' v' :=
  ⟨['a'], ['b', '?', 'c'], ['a', '?', 'b'], ['c'], by decide, by decide⟩

/-- and true when the keys contain no question mark -/
theorem C53_parameters_partial (k v k' v' : List Char) (h1 : '?' ∉ k) (h1' : '?' ∉ k')
    (h : paramKey k v = paramKey k' v') : k = k' ∧ v = v' := split_at_sep h1 h1' h

theorem append_sep_iff (sep : Char) (a b a' b' : List Char) :
    a ++ sep :: b = a' ++ sep :: b' ↔
      (a = a' ∧ b = b') ∨ (∃ w, a' = a ++ sep :: w ∧ b = w ++ sep :: b') ∨ (∃ w, a = a' ++ sep :: w ∧ b' = w ++ sep :: b) := by
  constructor
  · intro h
    induction a generalizing a' with
    | nil =>
      cases a' with
      | nil => exact .inl ⟨rfl, by simpa using h⟩
      | cons c a' =>
        simp only [List.nil_append, List.cons_append, List.cons.injEq] at h
        exact .inr (.inl ⟨a', by simp [h.1], h.2⟩)
    | cons c a ih =>
      cases a' with
      | nil =>
        simp only [List.nil_append, List.cons_append, List.cons.injEq] at h
        exact .inr (.inr ⟨a, by simp [h.1], h.2.symm⟩)
      | cons c' a' =>
        simp only [List.cons_append, List.cons.injEq] at h
        obtain ⟨rfl, h⟩ := h
        rcases ih a' h with ⟨h1, h2⟩ | ⟨w, h1, h2⟩ | ⟨w, h1, h2⟩
        · exact .inl ⟨by rw [h1], h2⟩
        · exact .inr (.inl ⟨w, by simp [h1], h2⟩)
        · exact .inr (.inr ⟨w, by simp [h1], h2⟩)
  · rintro (⟨rfl, rfl⟩ | ⟨w, rfl, rfl⟩ | ⟨w, rfl, rfl⟩) <;> simp

/-- C53 for registered parameters, exactly: two pairs share an entry if and only if they are the
same pair, or one key continues the other past a question mark that the other pair has in its
variable name -/
theorem C53_parameters_iff (k v k' v' : List Char) :
    paramKey k v = paramKey k' v' ↔
      (k = k' ∧ v = v') ∨ (∃ w, k' = k ++ '?' :: w ∧ v = w ++ '?' :: v') ∨ (∃ w, k = k' ++ '?' :: w ∧ v' = w ++ '?' :: v) :=
  append_sep_iff '?' k v k' v'

/-- C53 for inputs, exactly: two inputs share a registry entry if and only if they are the same, or
they differ only in which colon is taken to end the namespace (no namespace counting as none) -/
theorem C53_names_iff (ns n ns' n' : List Char) :
    fullName ns n = fullName ns' n' ↔
      (ns = ns' ∧ n = n') ∨
      (ns = [] ∧ ns' ≠ [] ∧ n = ns' ++ ':' :: n') ∨ (ns' = [] ∧ ns ≠ [] ∧ n' = ns ++ ':' :: n) ∨
      (ns ≠ [] ∧ ∃ w, ns' = ns ++ ':' :: w ∧ n = w ++ ':' :: n') ∨ (ns' ≠ [] ∧ ∃ w, ns = ns' ++ ':' :: w ∧ n' = w ++ ':' :: n) := by
  rw [fullName, fullName]
  by_cases e : ns = [] <;> by_cases e' : ns' = []
  · simp [e, e']
  · simp [e, e', Ne.symm e', eq_comm (a := ([] : List Char))]
  · simp [e, e', eq_comm (b := n')]
  · rw [if_neg e, if_neg e', append_sep_iff]
    simp [e, e']

/-- names meeting the hypotheses -/
example : fullName ['n', 's'] ['x'] = ['n', 's', ':', 'x'] ∧ fullName [] ['x'] = ['x'] := by decide

/-! ## C54 -/

section
variable {K Ty L : Type} {Val : Ty → Type} [LinearOrder K] [DecidableEq Ty]

omit [LinearOrder K] [DecidableEq Ty] in
/-- C54: in whatever state the init_value is and whatever happened to the engine, `get()` returns
`v` exactly when `v` is the registry's present value, the validator accepts it, and - as long as
the init_value has never been looked at - the type has been resolved -/
theorem C54_get {τ : Ty} (iv : InitValue K (Val τ)) (e : Engine K Ty L Val) (v : Val τ) :
    (iv.get e).2 = .ok v ↔ (e.st τ).reg iv.key = some v ∧ iv.validator v = true ∧
      (iv.status = .registered → (e.st τ).resolveCalled = true) := by
  rw [InitValue.get]
  simp only [getValue, resolved]
  cases hr : (e.st τ).reg iv.key with
  | none =>
    by_cases h : iv.status = .registered <;> simp [h]
  | some w =>
    by_cases h : iv.status = .registered
    · cases hc : (e.st τ).resolveCalled
      · simp [h]
      · by_cases hv : iv.validator w = true
        · simp only [h, hv, if_true, Option.isSome_some, Bool.and_self, Option.some.injEq, Outcome.ok.injEq]
          constructor
          · rintro rfl; exact ⟨rfl, hv, fun _ => trivial⟩
          · exact fun h => h.1
        · simp only [h, hv, if_true, Option.isSome_some, Bool.and_self, Option.some.injEq]
          constructor
          · intro h; simp at h
          · rintro ⟨rfl, h, _⟩; exact absurd h hv
    · by_cases hv : iv.validator w = true
      · simp only [h, hv, if_true, if_false, Option.some.injEq, Outcome.ok.injEq]
        constructor
        · rintro rfl; exact ⟨rfl, hv, fun h => absurd h (by simp)⟩
        · exact fun h => h.1
      · simp only [h, hv, if_false, Option.some.injEq]
        constructor
        · intro h; simp at h
        · rintro ⟨rfl, h, _⟩; exact absurd h hv

omit [LinearOrder K] [DecidableEq Ty] in
/-- C54: a new init_value yields nothing before resolution: `get()` throws and `valid()` and
`resolved()` are false -/
theorem C54_before_resolution {τ : Ty} (iv : InitValue K (Val τ)) (e : Engine K Ty L Val)
    (hs : iv.status = .registered) (hr : resolved τ iv.key e = false) :
    (iv.get e).2 = .throws "runtime_error" ∧ (iv.valid e).2 = .ok false ∧ (iv.resolved e).2 = false := by
  refine ⟨by simp [InitValue.get, hs, hr], ?_, by simp [InitValue.resolved, hr]⟩
  simp [InitValue.valid, InitValue.resolved, hs, hr]

example : ((⟨3, fun v => v < 9, .registered⟩ : InitValue Nat Nat).get (τ := ()) twoTargets).2 = .throws "runtime_error" :=
  (C54_before_resolution (τ := ()) ⟨3, fun v => v < 9, .registered⟩ twoTargets rfl (by
    simp [resolved, twoTargets, registerTarget, registerHardCodedSource, setHardCoded, registerLuaSource, fresh])).1

omit [LinearOrder K] [DecidableEq Ty] in
/-- **C54** after a `get()` that came too early `status()` is `resolve_failed`, and the next `get()`
no longer asks whether the type has been resolved: it goes to the registry, throws `domain_error`
if the key is missing there and otherwise gives its value to the validator, even if no resolve
has ever been called -/
theorem C54_too_early {τ : Ty} (iv : InitValue K (Val τ)) (e : Engine K Ty L Val)
    (hs : iv.status = .registered) (hr : resolved τ iv.key e = false) (e' : Engine K Ty L Val) :
    (iv.get e).1.status = .resolveFailed ∧
    ((e'.st τ).reg iv.key = none → ((iv.get e).1.get e').2 = .throws "domain_error") ∧
    (∀ v, (e'.st τ).reg iv.key = some v →
      ((iv.get e).1.get e').2 = if iv.validator v then .ok v else .throws "runtime_error") := by
  have h1 : (iv.get e).1 = { iv with status := .resolveFailed } := by simp [InitValue.get, hs, hr]
  rw [h1]
  refine ⟨rfl, fun hn => by simp [InitValue.get, getValue, hn], fun v hv => ?_⟩
  simp only [InitValue.get, getValue, hv]
  by_cases h : iv.validator v <;> simp [h]

/-- asked twice before resolution: two different exceptions -/
example : let iv : InitValue Nat Nat := ⟨3, fun v => v < 9, .registered⟩
    (iv.get (τ := ()) twoTargets).2 = .throws "runtime_error" ∧
    ((iv.get (τ := ()) twoTargets).1.get (τ := ()) twoTargets).2 = .throws "domain_error" := by
  have hr : resolved () 3 twoTargets = false := by
    simp [resolved, twoTargets, registerTarget, registerHardCodedSource, setHardCoded, registerLuaSource, fresh]
  exact ⟨(C54_before_resolution (τ := ()) ⟨3, fun v => v < 9, .registered⟩ twoTargets rfl hr).1,
    (C54_too_early (τ := ()) ⟨3, fun v => v < 9, .registered⟩ twoTargets rfl hr twoTargets).2.1
      (by simp [twoTargets, registerTarget, registerHardCodedSource, setHardCoded, registerLuaSource, fresh])⟩

/-- the calls one can make on an init_value -/
inductive Call
  | get
  | resolved
  | valid
deriving DecidableEq

/-- a call, its result forgotten -/
def Call.run {τ : Ty} (c : Call) (iv : InitValue K (Val τ)) (e : Engine K Ty L Val) : InitValue K (Val τ) :=
  match c with
  | .get => (iv.get e).1
  | .resolved => (iv.resolved e).1
  | .valid => (iv.valid e).1

/-- the cached status agrees with the registry -/
def CacheOk {τ : Ty} (iv : InitValue K (Val τ)) (e : Engine K Ty L Val) : Prop :=
  match iv.status with
  | .valid => ∃ v, (e.st τ).reg iv.key = some v ∧ iv.validator v = true
  | .invalid => ∃ v, (e.st τ).reg iv.key = some v ∧ iv.validator v = false
  | _ => True

omit [LinearOrder K] [DecidableEq Ty] in
theorem cache_step {τ : Ty} (c : Call) (iv : InitValue K (Val τ)) (e : Engine K Ty L Val) (h : CacheOk iv e) :
    CacheOk (c.run iv e) e ∧ (c.run iv e).key = iv.key ∧ (c.run iv e).validator = iv.validator := by
  cases c with
  | get =>
    simp only [Call.run, InitValue.get, getValue]
    cases hr : (e.st τ).reg iv.key with
    | none =>
      by_cases hs : iv.status = .registered
      · simp [hs, Verif.InputEngine.resolved, hr, CacheOk]
      · simp [hs, hr, h]
    | some w =>
      by_cases hs : iv.status = .registered
      · cases hc : (e.st τ).resolveCalled
        · simp [hs, Verif.InputEngine.resolved, hr, hc, CacheOk]
        · cases hv : iv.validator w
          · simp [hs, Verif.InputEngine.resolved, hr, hc, CacheOk, hv]
          · simp [hs, Verif.InputEngine.resolved, hr, hc, CacheOk, hv]
      · cases hv : iv.validator w
        · simp [hs, hr, CacheOk, hv]
        · simp [hs, hr, CacheOk, hv]
  | resolved =>
    simp only [Call.run, InitValue.resolved]
    split
    · simp [CacheOk]
    · exact ⟨h, rfl, rfl⟩
  | valid =>
    simp only [Call.run, InitValue.valid, InitValue.resolved, getValue]
    by_cases h1 : iv.status = .valid
    · simp [h1, h]
    · by_cases h2 : iv.status = .invalid
      · simp [h2, h]
      · cases hr : (e.st τ).reg iv.key with
        | none => simp [h1, h2, Verif.InputEngine.resolved, hr, h]
        | some w =>
          cases hc : (e.st τ).resolveCalled
          · simp [h1, h2, Verif.InputEngine.resolved, hr, hc, h]
          · cases hv : iv.validator w
            · simp [h1, h2, Verif.InputEngine.resolved, hr, hc, CacheOk, hv]
            · simp [h1, h2, Verif.InputEngine.resolved, hr, hc, CacheOk, hv]

omit [LinearOrder K] [DecidableEq Ty] in
/-- C54 as far as it holds: while the registry does not change, `valid()` reports the validator's
verdict on the registry's value, after any sequence of calls on the init_value; it never throws,
and false means that the value is rejected or not resolved.  (Missing: a registry that changes
after the verdict was cached, see `C54_stale_verdict_fails`.) -/
theorem C54_cache_partial {τ : Ty} (key : K) (validator : Val τ → Bool) (e : Engine K Ty L Val) (calls : List Call) :
    let iv := calls.foldl (fun iv c => c.run iv e) (⟨key, validator, .registered⟩ : InitValue K (Val τ))
    ((iv.valid e).2 = .ok true ∧ ∃ v, (e.st τ).reg key = some v ∧ validator v = true) ∨
    ((iv.valid e).2 = .ok false ∧
      (resolved τ key e = false ∨ ∃ v, (e.st τ).reg key = some v ∧ validator v = false)) := by
  intro iv
  have hinv : CacheOk iv e ∧ iv.key = key ∧ iv.validator = validator := by
    have : ∀ (iv0 : InitValue K (Val τ)), CacheOk iv0 e →
        CacheOk (calls.foldl (fun iv c => c.run iv e) iv0) e ∧
        (calls.foldl (fun iv c => c.run iv e) iv0).key = iv0.key ∧
        (calls.foldl (fun iv c => c.run iv e) iv0).validator = iv0.validator := by
      induction calls with
      | nil => intro iv0 h; exact ⟨h, rfl, rfl⟩
      | cons c cs ih =>
        intro iv0 h
        obtain ⟨h1, h2, h3⟩ := cache_step c iv0 e h
        obtain ⟨g1, g2, g3⟩ := ih (c.run iv0 e) h1
        exact ⟨g1, g2.trans h2, g3.trans h3⟩
    exact this _ trivial
  obtain ⟨hc, hk, hval⟩ := hinv
  clear_value iv
  subst hk hval
  rw [InitValue.valid]
  by_cases h1 : iv.status = .valid
  · simp only [CacheOk, h1] at hc
    left
    simp [h1, hc]
  · by_cases h2 : iv.status = .invalid
    · simp only [CacheOk, h2] at hc
      right
      simp [h2, hc]
    · simp only [h1, h2, if_false, InitValue.resolved]
      cases hr : Verif.InputEngine.resolved τ iv.key e with
      | false => right; simp
      | true =>
        have hs : ((e.st τ).reg iv.key).isSome := by
          rw [Verif.InputEngine.resolved, Bool.and_eq_true_iff] at hr; exact hr.2
        obtain ⟨v, hv⟩ := Option.isSome_iff_exists.mp hs
        simp only [if_true, getValue, hv]
        cases hb : iv.validator v with
        | true => left; exact ⟨rfl, v, rfl, hb⟩
        | false => right; exact ⟨rfl, .inr ⟨v, rfl, hb⟩⟩

omit [LinearOrder K] [DecidableEq Ty] in
/-- C54: even when the registry changes, asking `resolved()` first makes `valid()` look again -/
theorem C54_resolved_then_valid {τ : Ty} (iv : InitValue K (Val τ)) (e : Engine K Ty L Val) (v : Val τ)
    (hr : (iv.resolved e).2 = true) (hv : (e.st τ).reg iv.key = some v) :
    ((iv.resolved e).1.valid e).2 = .ok (iv.validator v) := by
  rw [InitValue.resolved] at hr ⊢
  split at hr
  · next h =>
    simp only [h, if_true, InitValue.valid, InitValue.resolved, getValue, hv]
    simp
  · simp at hr

/-- the value 7 from Lua, with a validator it passes and one it does not -/
example (bound : Nat) : ∃ e', resolveInputs (demo3 false) [()] twoTargets = (e', .ok true) ∧
    (((⟨3, fun v => v < bound, .registered⟩ : InitValue Nat Nat).resolved (τ := ()) e').1.valid (τ := ()) e').2 = .ok (7 < bound) := by
  obtain ⟨e', h⟩ := twoTargets_resolve false
  have hm : 3 ∈ (twoTargets.st ()).targets := by simp [twoTargets_targets]
  have hg := (C50_priority (demo3 false) (by simp) h (by simp) rfl hm).1 7 ⟨_, rfl, twoTargets_lua _ 3 (by decide)⟩
  have hr := (C51_get_after_true (demo3 false) (by simp) h (by simp) hm).2
  refine ⟨e', h, C54_resolved_then_valid (τ := ()) ⟨3, fun v => v < bound, .registered⟩ e' 7
    (by simp [InitValue.resolved, hr]) ?_⟩
  revert hg
  simp only [getValue]
  cases (e'.st ()).reg 3 <;> simp

end

/-- C54 is false when the registry changes: the value was 1 and accepted; the program then writes
0, which the validator rejects; `valid()` still says true -/
theorem C54_stale_verdict_fails :
    ∃ (e e' : Engine Nat Unit Nat (fun _ => Nat)) (validator : Nat → Bool),
      let iv : InitValue Nat Nat := ⟨3, validator, .registered⟩
      let iv1 := (InitValue.valid (τ := ()) (Val := fun _ => Nat) iv e).1
      (InitValue.valid (τ := ()) (Val := fun _ => Nat) iv e).2 = .ok true ∧
      (e'.st ()).reg 3 = some 0 ∧ resolved () 3 e' = true ∧ validator 0 = false ∧
      (InitValue.valid (τ := ()) (Val := fun _ => Nat) iv1 e').2 = .ok true := by
  let mk (v : Nat) : Engine Nat Unit Nat (fun _ => Nat) :=
    { st := fun _ => { reg := fun _ => some v, targets := {3}, failed := ∅, resolveCalled := true, allResolved := true }
      hcData := fun _ _ => none, lua := none, hc := false }
  refine ⟨mk 1, mk 0, fun n => n == 1, ?_⟩
  simp [mk, InitValue.valid, InitValue.resolved, Verif.InputEngine.resolved, getValue]

/-! ## C70 -/

/-- the value of little-endian bytes -/
def valueOf : List (BitVec 8) → Nat
  | [] => 0
  | b :: bs => b.toNat + 256 * valueOf bs

theorem valueOf_bytesOf (n x : Nat) : valueOf (bytesOf n x) = x % 256 ^ n := by
  induction n generalizing x with
  | zero => simp [bytesOf, valueOf, Nat.mod_one]
  | succ n ih =>
    have h : bytesOf (n + 1) x = BitVec.ofNat 8 x :: bytesOf n (x / 256) := by
      simp only [bytesOf, List.range_succ_eq_map, List.map_cons, List.map_map, pow_zero, Nat.div_one,
        List.cons.injEq, true_and]
      apply List.map_congr_left
      intro i _
      simp only [Function.comp]
      rw [Nat.div_div_eq_div_mul, pow_succ, mul_comm]
    rw [h, valueOf, ih, BitVec.toNat_ofNat]
    have h2 : (2 : Nat) ^ 8 = 256 := rfl
    rw [h2, pow_succ, mul_comm (256 ^ n) 256, Nat.mod_mul]

/-- reading a default back from its bytes and type tag -/
def decode : List (BitVec 8) × ParamType → Default
  | (b, .string) => .string b
  | (b, .size) => .size (BitVec.ofNat 64 (valueOf b))
  | (b, .float) => .float (BitVec.ofNat 32 (valueOf b))
  | (b, .double) => .double (BitVec.ofNat 64 (valueOf b))

/-- C70: no default loses information when stored -/
theorem C70_encoding (d : Default) : decode (encode d) = d := by
  cases d with
  | string s => rfl
  | size x =>
    simp only [encode, decode, valueOf_bytesOf]
    congr 1
    apply BitVec.eq_of_toNat_eq
    rw [BitVec.toNat_ofNat]
    have := x.isLt
    have h2 : (256 : Nat) ^ 8 = 2 ^ 64 := by decide
    rw [h2]; omega
  | float x =>
    simp only [encode, decode, valueOf_bytesOf]
    congr 1
    apply BitVec.eq_of_toNat_eq
    rw [BitVec.toNat_ofNat]
    have := x.isLt
    have h2 : (256 : Nat) ^ 4 = 2 ^ 32 := by decide
    rw [h2]; omega
  | double x =>
    simp only [encode, decode, valueOf_bytesOf]
    congr 1
    apply BitVec.eq_of_toNat_eq
    rw [BitVec.toNat_ofNat]
    have := x.isLt
    have h2 : (256 : Nat) ^ 8 = 2 ^ 64 := by decide
    rw [h2]; omega

/-- a registration: key, variable name, message and default -/
abbrev Registration := List Char × List Char × List Char × Default

/-- registrations in turn -/
def registerAllParams (l : List Registration) (p : Params) : Params :=
  l.foldl (fun p r => registerParameter r.1 r.2.1 r.2.2.1 r.2.2.2 p) p

theorem registerParameter_keeps (r : Registration) (p : Params) (k : List Char) (x) (h : p k = some x) :
    registerParameter r.1 r.2.1 r.2.2.1 r.2.2.2 p k = some x := by
  rw [registerParameter]
  cases hp : p (paramKey r.1 r.2.1) with
  | some _ => exact h
  | none =>
    by_cases e : k = paramKey r.1 r.2.1
    · subst e; rw [h] at hp; simp at hp
    · simp only [Function.update_of_ne e]; exact h

theorem registerParameter_other (r : Registration) (p : Params) (k : List Char) (h : k ≠ paramKey r.1 r.2.1) :
    registerParameter r.1 r.2.1 r.2.2.1 r.2.2.2 p k = p k := by
  rw [registerParameter]
  cases hp : p (paramKey r.1 r.2.1) with
  | some _ => rfl
  | none => simp only [Function.update_of_ne h]

/-- C70: in every history of registrations, what is stored under a key is the *first* default
registered under it -/
theorem C70_first_wins (l l' : List Registration) (r : Registration)
    (hfirst : ∀ q ∈ l, paramKey q.1 q.2.1 ≠ paramKey r.1 r.2.1) :
    ∃ msg b, registerAllParams (l ++ r :: l') (fun _ => none) (paramKey r.1 r.2.1) = some (msg, b) ∧
      decode b = r.2.2.2 ∧ msg = r.2.2.1 := by
  have h1 : registerAllParams l (fun _ => none) (paramKey r.1 r.2.1) = none := by
    have : ∀ p : Params, p (paramKey r.1 r.2.1) = none → registerAllParams l p (paramKey r.1 r.2.1) = none := by
      induction l with
      | nil => intro p hp; exact hp
      | cons q l ih =>
        intro p hp
        apply ih (fun q' h' => hfirst q' (by simp [h']))
        exact (registerParameter_other q p _ (fun e => hfirst q (by simp) e.symm)).trans hp
    exact this _ rfl
  have h2 : registerAllParams (l ++ r :: l') (fun _ => none) =
      registerAllParams l' (registerParameter r.1 r.2.1 r.2.2.1 r.2.2.2 (registerAllParams l fun _ => none)) := by
    simp [registerAllParams]
  refine ⟨r.2.2.1, encode r.2.2.2, ?_, C70_encoding _, rfl⟩
  rw [h2]
  have h3 : registerParameter r.1 r.2.1 r.2.2.1 r.2.2.2 (registerAllParams l fun _ => none) (paramKey r.1 r.2.1) =
      some (r.2.2.1, (encode r.2.2.2).1, (encode r.2.2.2).2) := by
    rw [registerParameter, h1]
    simp
  generalize registerParameter r.1 r.2.1 r.2.2.1 r.2.2.2 (registerAllParams l fun _ => none) = p at h3
  clear h1 h2 hfirst
  induction l' generalizing p with
  | nil => exact h3
  | cons q l' ih => exact ih _ (registerParameter_keeps q p _ _ h3)

example : ∃ msg b, registerAllParams [(['m'], ['x'], ['1'], .double 7), (['m'], ['y'], ['2'], .string []),
    (['m'], ['y'], ['3'], .double 8)] (fun _ => none) (paramKey ['m'] ['y']) = some (msg, b) ∧ msg = ['2'] := by
  obtain ⟨msg, b, h, -, h'⟩ := C70_first_wins [(['m'], ['x'], ['1'], .double 7)] [(['m'], ['y'], ['3'], .double 8)]
    (['m'], ['y'], ['2'], .string []) (by simp [paramKey])
  exact ⟨msg, b, h, h'⟩

/-- C70 is false for a default registered again: the new one is dropped though the call returns
true -/
theorem C70_reregister_fails :
    ∃ (r r' : Registration) (b : List (BitVec 8) × ParamType), r.1 = r'.1 ∧ r.2.1 = r'.2.1 ∧
      registerAllParams [r, r'] (fun _ => none) (paramKey r'.1 r'.2.1) = some (r.2.2.1, b) ∧ decode b ≠ r'.2.2.2 := by
  refine ⟨(['k'], ['v'], [], .size 1), (['k'], ['v'], [], .size 2), encode (.size 1), rfl, rfl, ?_, ?_⟩
  · simp [registerAllParams, registerParameter, paramKey]
  · rw [C70_encoding]; simp

/-- C70 is false for different parameters whose keys collide -/
theorem C70_collision_fails :
    ∃ (r r' : Registration) (b : List (BitVec 8) × ParamType), (r.1, r.2.1) ≠ (r'.1, r'.2.1) ∧
      registerAllParams [r, r'] (fun _ => none) (paramKey r'.1 r'.2.1) = some (r.2.2.1, b) ∧ decode b ≠ r'.2.2.2 := by
  refine ⟨(['a'], ['b', '?', 'c'], [], .size 1), (['a', '?', 'b'], ['c'], [], .size 2), encode (.size 1),
    by decide, ?_, ?_⟩
  · simp [registerAllParams, registerParameter, paramKey]
  · rw [C70_encoding]; simp

/-- C70 as far as it holds: parameters with keys free of question marks and registered once keep
their defaults, whatever else is registered before and after.  (Missing: `C70_reregister_fails`,
`C70_collision_fails`.) -/
theorem C70_own_key_partial (l l' : List Registration) (r : Registration) (hq : ∀ q ∈ r :: l, '?' ∉ q.1)
    (honce : ∀ q ∈ l, (q.1, q.2.1) ≠ (r.1, r.2.1)) :
    ∃ msg b, registerAllParams (l ++ r :: l') (fun _ => none) (paramKey r.1 r.2.1) = some (msg, b) ∧
      decode b = r.2.2.2 ∧ msg = r.2.2.1 := by
  apply C70_first_wins
  intro q hm e
  have := C53_parameters_partial _ _ _ _ (hq q (by simp [hm])) (hq r (by simp)) e
  exact honce q hm (Prod.ext this.1 this.2)

/-- a history meeting the hypotheses -/
example : ∀ q ∈ ([(['m'], ['x'], [], .double 7), (['m'], ['y'], [], .string [])] : List Registration), '?' ∉ q.1 := by
  simp

/-- C70, exactly: in any history, the default stored under a parameter's key is the one registered
last for it, or any other, if and only if it is equal to the first default registered under that
key, by whatever key and name this was. -/
theorem C70_default_iff (l l' : List Registration) (q r : Registration)
    (hfirst : ∀ p ∈ l, paramKey p.1 p.2.1 ≠ paramKey q.1 q.2.1) (hk : paramKey q.1 q.2.1 = paramKey r.1 r.2.1) :
    ∃ msg b, registerAllParams (l ++ q :: l') (fun _ => none) (paramKey r.1 r.2.1) = some (msg, b) ∧
      (decode b = r.2.2.2 ↔ q.2.2.2 = r.2.2.2) := by
  obtain ⟨msg, b, h, hb, _⟩ := C70_first_wins l l' q hfirst
  exact ⟨msg, b, hk ▸ h, by rw [hb]⟩

example : paramKey ['a'] ['b', '?', 'c'] = paramKey ['a', '?', 'b'] ['c'] := by decide

/-! ## C71 -/

section
variable {K Ty L : Type} {Val : Ty → Type} [LinearOrder K] [DecidableEq Ty]

omit [DecidableEq Ty] in
/-- C71: registering a value makes lookups of its key read the given table, under the given Lua
name -/
theorem C71_register_value (env : Env K Ty L Val) (ls : LuaSource K L) (key name lk : K) (tbl raw : L) (τ : Ty)
    (v : Val τ) (ht : ls.tables name = some tbl) (hi : env.index tbl lk = .ok (some raw)) (ha : env.as τ raw = .ok v) :
    (ls.registerValue key name (some lk)).2.get env τ key = .ok (some v) := by
  rw [C50_lua_lookup]
  exact ⟨name, tbl, raw, by simp [LuaSource.registerValue], ht, by simpa [LuaSource.registerValue] using hi, ha⟩

omit [DecidableEq Ty] in
example : ((demoLua 7).registerValue 12 0 (some 3)).2.get (demo3 false) () 12 = .ok (some 7) :=
  C71_register_value (demo3 false) (demoLua 7) 12 0 3 7 7 () 7 rfl rfl rfl

/-- C71: and leaves the other keys alone -/
theorem C71_register_value_frame (env : Env K Ty L Val) (ls : LuaSource K L) (key name : K) (lk : Option K) (τ : Ty)
    (k : K) (hk : k ≠ key) : (ls.registerValue key name lk).2.get env τ k = ls.get env τ k := by
  cases lk <;> simp [LuaSource.get, LuaSource.registerValue, hk]

omit [DecidableEq Ty] in
example : ((demoLua 7).registerValue 12 0 (some 3)).2.get (demo3 false) () 3 = (demoLua 7).get (demo3 false) () 3 :=
  C71_register_value_frame _ _ 12 0 (some 3) () 3 (by decide)

/-- C71 as far as it holds: the first registration of a top-level table under its own name makes
that table available.  (Missing: a different Lua name, a second registration; see below.) -/
theorem C71_register_table_partial (env : Env K Ty L Val) (baseState : K) (base : K → Option L) (ls : LuaSource K L)
    (name : K) (l : L) (hb : base name = some l) (hnew : ls.tables name = none) :
    ∃ ls', ls.registerTable env baseState base name baseState none = .ok ((ls.tableMap name).isSome, ls') ∧
      ls'.tables name = some l ∧ ∀ n, n ≠ name → ls'.tables n = ls.tables n := by
  refine ⟨_, by simp [LuaSource.registerTable, LuaSource.registerValue, LuaSource.loadTable, hb, hnew]; rfl, ?_, ?_⟩
  · simp
  · intro n hn; simp [hn]

example : ∃ ls', (⟨fun _ => none, fun _ => none, fun _ => none⟩ : LuaSource Nat Nat).registerTable (demo3 false) 100
    (fun n => if n = 5 then some 42 else none) 5 100 none = .ok (false, ls') ∧ ls'.tables 5 = some 42 := by
  obtain ⟨ls', h, h', -⟩ := C71_register_table_partial (demo3 false) 100 (fun n => if n = 5 then some 42 else none)
    ⟨fun _ => none, fun _ => none, fun _ => none⟩ 5 42 rfl rfl
  exact ⟨ls', h, h'⟩

/-- C71 for top-level tables, exactly: registering makes the table of the Lua file that bears its
name available if and only if there is one and no table was loaded under that name before, or that
one was the same table; the Lua name given makes no difference. -/
theorem C71_register_table_iff (env : Env K Ty L Val) (baseState : K) (base : K → Option L) (ls : LuaSource K L)
    (name : K) (lk : Option K) :
    ((∃ r ls', ls.registerTable env baseState base name baseState lk = .ok (r, ls')) ↔ (base name).isSome) ∧
    ∀ r ls', ls.registerTable env baseState base name baseState lk = .ok (r, ls') →
      r = (ls.tableMap name).isSome ∧ (ls'.tables name = base name ↔ ls.tables name = none ∨ ls.tables name = base name) ∧
      (∀ n, n ≠ name → ls'.tables n = ls.tables n) := by
  cases hb : base name with
  | none =>
    have : ∀ r, ls.registerTable env baseState base name baseState lk ≠ .ok r := by
      intro r h
      simp [LuaSource.registerTable, LuaSource.registerValue, LuaSource.loadTable, hb] at h
    exact ⟨⟨fun ⟨r, ls', h⟩ => absurd h (this _), fun h => by simp at h⟩, fun r ls' h => absurd h (this _)⟩
  | some l =>
    cases ht : ls.tables name with
    | none =>
      have hr : ls.registerTable env baseState base name baseState lk = .ok ((ls.tableMap name).isSome,
          { (ls.registerValue name baseState lk).2 with
            tables := Function.update (ls.registerValue name baseState lk).2.tables name (some l) }) := by
        simp [LuaSource.registerTable, LuaSource.registerValue, LuaSource.loadTable, hb, ht]
      refine ⟨⟨fun _ => rfl, fun _ => ⟨_, _, hr⟩⟩, fun r ls' h => ?_⟩
      rw [hr, Outcome.ok.injEq, Prod.mk.injEq] at h
      obtain ⟨rfl, rfl⟩ := h
      exact ⟨rfl, by simp, fun n hn => by simp [hn, LuaSource.registerValue]⟩
    | some l0 =>
      have hr : ls.registerTable env baseState base name baseState lk = .ok ((ls.tableMap name).isSome,
          (ls.registerValue name baseState lk).2) := by
        simp [LuaSource.registerTable, LuaSource.registerValue, LuaSource.loadTable, hb, ht]
      refine ⟨⟨fun _ => rfl, fun _ => ⟨_, _, hr⟩⟩, fun r ls' h => ?_⟩
      rw [hr, Outcome.ok.injEq, Prod.mk.injEq] at h
      obtain ⟨rfl, rfl⟩ := h
      exact ⟨rfl, by simp [LuaSource.registerValue, ht], fun n hn => by simp [LuaSource.registerValue]⟩

end

/-- C71 is false for a table with another name in the Lua file: `register_table("t",
"base_state", "lua_t")` looks for `t`, not `lua_t` -/
theorem C71_lua_name_fails :
    ∃ base : Nat → Option Nat, base 8 = some 42 ∧
      (demoLua 7).registerTable (demo false id) 100 base 5 100 (some 8) = .throws "runtime_error" := by
  refine ⟨fun k => if k = 8 then some 42 else none, by simp, ?_⟩
  simp [LuaSource.registerTable, LuaSource.registerValue, LuaSource.loadTable]

/-- C71 is false for a second registration: it reports that it displaced the old definition, but
the old table stays -/
theorem C71_replace_fails :
    ∃ (base : Nat → Option Nat) (ls : LuaSource Nat Nat) (ls' : LuaSource Nat Nat), base 5 = some 42 ∧
      ls.registerTable (demo false id) 100 base 5 100 none = .ok (true, ls') ∧ ls'.tables 5 = some 7 := by
  let ls : LuaSource Nat Nat := { tableMap := fun _ => some 100, luaKey := fun _ => none, tables := fun _ => some 7 }
  refine ⟨fun _ => some 42, ls, { ls with tableMap := Function.update ls.tableMap 5 (some 100) }, rfl, ?_, rfl⟩
  simp [LuaSource.registerTable, LuaSource.registerValue, LuaSource.loadTable, ls]

/-- C71 is false for a key that once had a Lua name of its own: registering it again without one
keeps the old Lua name -/
theorem C71_stale_lua_name_fails :
    let ls : LuaSource Nat Nat := ((demoLua 7).registerValue 1 0 (some 9)).2
    (ls.registerValue 1 0 none).2.luaKey 1 = some 9 := by
  simp [LuaSource.registerValue]

end Verif.InputEngine
