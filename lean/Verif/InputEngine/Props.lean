import Verif.InputEngine.Lemmas
import Verif.InputEngine.Demo

/-!
# C50 - C52: resolving inputs
-/

namespace Verif.InputEngine

section
variable {K Ty L : Type} {Val : Ty → Type} [LinearOrder K] [DecidableEq Ty]

/-! ## all types -/

omit [LinearOrder K] in
theorem setSlot_slot_same (e : Engine K Ty L Val) (τ : Ty) (s : Slot K (Val τ)) : (e.setSlot τ s).slot τ = s := by
  simp [Engine.slot, Engine.setSlot]

omit [LinearOrder K] in
theorem setSlot_slot_ne (e : Engine K Ty L Val) {τ τ' : Ty} (s : Slot K (Val τ)) (h : τ' ≠ τ) :
    (e.setSlot τ s).slot τ' = e.slot τ' := by
  simp [Engine.slot, Engine.setSlot, h]

/-- the types of a tuple of distinct types are resolved independently -/
theorem resolveTypes_eq (env : Env K Ty L Val) (tys : List Ty) (hnd : tys.Nodup) (e : Engine K Ty L Val) (b : Ty → Bool)
    (hb : ∀ τ ∈ tys, (resolveType env e.lua e.hc τ (e.slot τ)).2 = .ok (b τ)) :
    ∃ e', resolveTypes env tys e = (e', .ok (tys.map b)) ∧ e'.lua = e.lua ∧ e'.hc = e.hc ∧
      ∀ τ, e'.slot τ = if τ ∈ tys then (resolveType env e.lua e.hc τ (e.slot τ)).1 else e.slot τ := by
  induction tys generalizing e with
  | nil => exact ⟨e, rfl, rfl, rfl, by simp⟩
  | cons τ τs ih =>
    have hτ : τ ∉ τs := (List.nodup_cons.mp hnd).1
    rcases hr : resolveType env e.lua e.hc τ (e.slot τ) with ⟨s, r⟩
    have h1 := hb τ (by simp)
    rw [hr] at h1
    simp only at h1
    subst h1
    obtain ⟨e', he', hl, hh, hs⟩ := ih (List.nodup_cons.mp hnd).2 (e.setSlot τ s) (by
      intro τ' h'
      have hne : τ' ≠ τ := by rintro rfl; exact hτ h'
      rw [setSlot_slot_ne e s hne]
      exact hb τ' (by simp [h']))
    refine ⟨e', ?_, hl, hh, ?_⟩
    · rw [resolveTypes, hr]
      simp only [he', List.map_cons]
    · intro τ'
      rw [hs τ']
      by_cases h : τ' = τ
      · subst h
        simp [hτ, hr, setSlot_slot_same]
      · rw [setSlot_slot_ne e s h]
        simp [h, Engine.setSlot]

theorem resolveTypes_throws (env : Env K Ty L Val) (tys : List Ty) (hnd : tys.Nodup) (e : Engine K Ty L Val) {τ0 : Ty}
    (h0 : τ0 ∈ tys) (hb : ∀ b, (resolveType env e.lua e.hc τ0 (e.slot τ0)).2 ≠ .ok b) (bs : List Bool) :
    (resolveTypes env tys e).2 ≠ .ok bs := by
  induction tys generalizing e bs with
  | nil => simp at h0
  | cons τ τs ih =>
    have hτ : τ ∉ τs := (List.nodup_cons.mp hnd).1
    rcases hr : resolveType env e.lua e.hc τ (e.slot τ) with ⟨s, r⟩
    rw [resolveTypes, hr]
    cases r with
    | ok b =>
      have hne : τ0 ≠ τ := by
        rintro rfl
        rw [hr] at hb
        exact hb b rfl
      have h0' : τ0 ∈ τs := by
        rcases List.mem_cons.mp h0 with h | h
        · exact absurd h hne
        · exact h
      have := ih (List.nodup_cons.mp hnd).2 (e.setSlot τ s) h0' (by
        rw [setSlot_slot_ne e s hne]
        exact hb)
      rcases hq : resolveTypes env τs (e.setSlot τ s) with ⟨e', r'⟩
      rw [hq] at this
      simp only [hq]
      cases r' with
      | ok bs' => exact absurd rfl (this bs')
      | _ => simp
    | _ => simp

theorem foldl_and (bs : List Bool) (b : Bool) : bs.foldl (· && ·) b = true ↔ b = true ∧ ∀ x ∈ bs, x = true := by
  induction bs generalizing b with
  | nil => simp
  | cons x bs ih => simp [ih, and_assoc]

/-- the sources have been asked for all targets without an exception -/
def Answered (env : Env K Ty L Val) (tys : List Ty) (e : Engine K Ty L Val) (org : ∀ τ, K → Origin (Val τ)) : Prop :=
  ∀ τ ∈ tys, ∀ k ∈ (e.st τ).targets, origin env e.lua e.hc τ (e.hcData τ) k = some (org τ k)

/-- what `resolve_inputs()` does when it returns -/
theorem resolveInputs_ok (env : Env K Ty L Val) {tys : List Ty} (hnd : tys.Nodup) {e e' : Engine K Ty L Val} {b : Bool}
    (h : resolveInputs env tys e = (e', .ok b)) :
    ∃ org, Answered env tys e org ∧ e'.lua = e.lua ∧ e'.hc = e.hc ∧
      (b = true ↔ ∀ τ ∈ tys, ∀ k ∈ (e.st τ).targets, (org τ k).isNowhere = false) ∧
      (∀ τ ∉ tys, e'.slot τ = e.slot τ) ∧
      ∀ τ ∈ tys, (e'.st τ).targets = (e.st τ).targets ∧ (e'.st τ).resolveCalled = true ∧
        (∀ k, k ∈ (e'.st τ).failed ↔ k ∈ (e.st τ).failed ∨ (k ∈ (e.st τ).targets ∧ (org τ k).isNowhere = true)) ∧
        (∀ k ∈ (e.st τ).targets, (e'.st τ).reg k = (org τ k).entry (env.isFun τ) ((e.st τ).reg k) ∧
          e'.hcData τ k = (org τ k).left (env.moved τ) (e.hcData τ k)) ∧
        (∀ k ∉ (e.st τ).targets, (e'.st τ).reg k = (e.st τ).reg k ∧ e'.hcData τ k = e.hcData τ k) := by
  have hsome : ∀ τ ∈ tys, ∀ k ∈ (e.st τ).targets, ∃ o, origin env e.lua e.hc τ (e.hcData τ) k = some o := by
    intro τ hτ k hk
    cases ho : origin env e.lua e.hc τ (e.hcData τ) k with
    | some o => exact ⟨o, rfl⟩
    | none =>
      exfalso
      have h1 := resolveTypes_throws env tys hnd e hτ (resolveType_throws env e.lua e.hc τ (e.slot τ) k hk ho)
      rw [resolveInputs] at h
      rcases hq : resolveTypes env tys e with ⟨e1, r⟩
      rw [hq] at h h1
      cases r with
      | ok bs => exact absurd rfl (h1 bs)
      | _ => simp at h
  classical
  let org : ∀ τ, K → Origin (Val τ) := fun τ k =>
    (origin env e.lua e.hc τ (e.hcData τ) k).getD .nowhere
  have horg : Answered env tys e org := by
    intro τ hτ k hk
    obtain ⟨o, ho⟩ := hsome τ hτ k hk
    simp [org, ho]
  have hty : ∀ τ, ∃ b : Bool, τ ∈ tys → ((b = true ↔ ∀ k ∈ (e.st τ).targets, (org τ k).isNowhere = false) ∧
      resolveType env e.lua e.hc τ (e.slot τ) =
      (⟨{ (e.st τ) with
          reg := fun k => if k ∈ (e.st τ).targets then (org τ k).entry (env.isFun τ) ((e.st τ).reg k) else (e.st τ).reg k
          failed := (e.st τ).failed ∪ (e.st τ).targets.filter fun k => (org τ k).isNowhere = true
          allResolved := (e.st τ).allResolved || b
          resolveCalled := true },
        fun k => if k ∈ (e.st τ).targets then (org τ k).left (env.moved τ) (e.hcData τ k) else e.hcData τ k⟩, .ok b)) := by
    intro τ
    by_cases hτ : τ ∈ tys
    · obtain ⟨b, h1, h2⟩ := resolveType_eq env e.lua e.hc τ (org τ) (e.slot τ) (horg τ hτ)
      exact ⟨b, fun _ => ⟨h1, h2⟩⟩
    · exact ⟨false, fun h => absurd h hτ⟩
  choose bf hbf using hty
  obtain ⟨e1, he1, hlua, hhc, hslot⟩ := resolveTypes_eq env tys hnd e bf (fun τ hτ => by rw [(hbf τ hτ).2])
  rw [resolveInputs, he1] at h
  simp only [Prod.mk.injEq, Outcome.ok.injEq] at h
  obtain ⟨rfl, hb⟩ := h
  refine ⟨org, horg, hlua, hhc, ?_, ?_, ?_⟩
  · rw [← hb, foldl_and]
    simp only [true_and, List.mem_map, forall_exists_index, and_imp, forall_apply_eq_imp_iff₂]
    exact ⟨fun h τ hτ => (hbf τ hτ).1.mp (h τ hτ), fun h τ hτ => (hbf τ hτ).1.mpr (h τ hτ)⟩
  · intro τ hτ
    rw [hslot τ, if_neg hτ]
  · intro τ hτ
    have := hslot τ
    rw [if_pos hτ, (hbf τ hτ).2] at this
    simp only [Engine.slot, Slot.mk.injEq] at this
    obtain ⟨hst, hhcd⟩ := this
    rw [hst, hhcd]
    refine ⟨rfl, rfl, ?_, ?_, ?_⟩
    · intro k; simp
    · intro k hk; simp [hk]
    · intro k hk; simp [hk]

/-- and it does return when no source throws -/
theorem resolveInputs_returns (env : Env K Ty L Val) {tys : List Ty} (hnd : tys.Nodup) {e : Engine K Ty L Val}
    {org : ∀ τ, K → Origin (Val τ)} (ho : Answered env tys e org) : ∃ e' b, resolveInputs env tys e = (e', .ok b) := by
  have hty : ∀ τ, ∃ b : Bool, τ ∈ tys → (resolveType env e.lua e.hc τ (e.slot τ)).2 = .ok b := by
    intro τ
    by_cases hτ : τ ∈ tys
    · obtain ⟨b, h1, h2⟩ := resolveType_eq env e.lua e.hc τ (org τ) (e.slot τ) (ho τ hτ)
      exact ⟨b, fun _ => by rw [h2]⟩
    · exact ⟨false, fun h => absurd h hτ⟩
  choose bf hbf using hty
  obtain ⟨e1, he1, _⟩ := resolveTypes_eq env tys hnd e bf (fun τ hτ => hbf τ hτ)
  exact ⟨e1, _, by rw [resolveInputs, he1]⟩

/-! ## C50 -/

/-- the Lua source has a value for the target -/
def LuaGives (env : Env K Ty L Val) (e : Engine K Ty L Val) (τ : Ty) (k : K) (v : Val τ) : Prop :=
  ∃ ls, e.lua = some ls ∧ ls.get env τ k = .ok (some v)

/-- there is no Lua source, or it says it has none -/
def LuaSilent (env : Env K Ty L Val) (e : Engine K Ty L Val) (τ : Ty) (k : K) : Prop :=
  e.lua = none ∨ ∃ ls, e.lua = some ls ∧ ls.get env τ k = .ok none

omit [LinearOrder K] [DecidableEq Ty] in
/-- C50: what "the Lua source has a value" means: the key is mapped to a loaded table, the table
has an entry under the Lua name of the key, and the entry converts to the target's type -/
theorem C50_lua_lookup (env : Env K Ty L Val) (ls : LuaSource K L) (τ : Ty) (k : K) (v : Val τ) :
    ls.get env τ k = .ok (some v) ↔
      ∃ name tbl raw, ls.tableMap k = some name ∧ ls.tables name = some tbl ∧
        env.index tbl ((ls.luaKey k).getD k) = .ok (some raw) ∧ env.as τ raw = .ok v := by
  rw [LuaSource.get]
  cases h1 : ls.tableMap k with
  | none => simp [missing]; split <;> simp
  | some name =>
    cases h2 : ls.tables name with
    | none => simp [missing, h2]; split <;> simp
    | some tbl =>
      simp only [Option.some.injEq, exists_and_left, exists_eq_left', h2]
      cases h3 : env.index tbl ((ls.luaKey k).getD k) with
      | ok r =>
        cases r with
        | none => simp [slice]
        | some raw =>
          cases h4 : env.as τ raw with
          | ok w => simp [slice, h4]
          | _ => simp [slice, h4]; try (split <;> simp)
      | _ => simp [slice]; try (split <;> simp)

theorem origin_lua {env : Env K Ty L Val} {e : Engine K Ty L Val} {τ : Ty} {k : K} {v : Val τ}
    (h : LuaGives env e τ k v) : origin env e.lua e.hc τ (e.hcData τ) k = some (.lua v) := by
  obtain ⟨ls, h1, h2⟩ := h
  simp [origin, h1, h2]

theorem origin_silent {env : Env K Ty L Val} {e : Engine K Ty L Val} {τ : Ty} {k : K}
    (h : LuaSilent env e τ k) : origin env e.lua e.hc τ (e.hcData τ) k =
      some (match e.hc, e.hcData τ k with | true, some v => .hard v | _, _ => .nowhere) := by
  rcases h with h | ⟨ls, h1, h2⟩
  · cases h1 : e.hc <;> cases h2 : e.hcData τ k <;> simp [origin, h, h2]
  · cases h3 : e.hc <;> cases h4 : e.hcData τ k <;> simp [origin, h1, h2, h4]

/-- C50: when `resolve_inputs()` returns, every registered target of a value type has the Lua
value if the Lua source has one; else the hard-coded default if there is one; else it is listed
as failed, keeps no new value, and the call returns false.  For every set of targets, whatever
was resolved before. -/
theorem C50_priority (env : Env K Ty L Val) {tys : List Ty} (hnd : tys.Nodup) {e e' : Engine K Ty L Val} {b : Bool}
    (h : resolveInputs env tys e = (e', .ok b)) {τ : Ty} (hτ : τ ∈ tys) (hf : env.isFun τ = false)
    {k : K} (hk : k ∈ (e.st τ).targets) :
    (∀ v, LuaGives env e τ k v → getValue τ k e' = .ok v) ∧
    (LuaSilent env e τ k → ∀ d, e.hc = true → e.hcData τ k = some d → getValue τ k e' = .ok d) ∧
    (LuaSilent env e τ k → (e.hc = false ∨ e.hcData τ k = none) →
      k ∈ (e'.st τ).failed ∧ b = false ∧ (e'.st τ).reg k = (e.st τ).reg k) := by
  obtain ⟨org, ho, _, _, hb, _, hτs⟩ := resolveInputs_ok env hnd h
  obtain ⟨_, _, hfail, hreg, _⟩ := hτs τ hτ
  have hk1 := ho τ hτ k hk
  refine ⟨fun v hl => ?_, fun hl d hhc hd => ?_, fun hl hn => ?_⟩
  · rw [origin_lua hl] at hk1
    obtain hk1 := Option.some.inj hk1
    rw [getValue, (hreg k hk).1, ← hk1]
    rfl
  · rw [origin_silent hl, hhc, hd] at hk1
    obtain hk1 := Option.some.inj hk1
    rw [getValue, (hreg k hk).1, ← hk1, hf]
    rfl
  · have : org τ k = .nowhere := by
      rw [origin_silent hl] at hk1
      obtain hk1 := Option.some.inj hk1
      rw [← hk1]
      rcases hn with hn | hn
      · rw [hn]
      · rw [hn]; cases e.hc <;> rfl
    refine ⟨(hfail k).mpr (.inr ⟨hk, by rw [this]; rfl⟩), ?_, by rw [(hreg k hk).1, this]; rfl⟩
    cases b with
    | false => rfl
    | true =>
      have := hb.mp rfl τ hτ k hk
      simp_all [Origin.isNowhere]

/-- 3 comes from Lua though it has a default, 4 from its default -/
example : ∃ e', resolveInputs (demo3 false) [()] twoTargets = (e', .ok true) ∧
    getValue () 3 e' = .ok 7 ∧ getValue () 4 e' = .ok 6 := by
  obtain ⟨e', h⟩ := twoTargets_resolve false
  refine ⟨e', h, (C50_priority (demo3 false) (by simp) h (by simp) rfl (by simp [twoTargets_targets])).1 7
      ⟨_, rfl, twoTargets_lua _ 3 (by decide)⟩,
    (C50_priority (demo3 false) (by simp) h (by simp) rfl (by simp [twoTargets_targets])).2.1
      (.inr ⟨_, rfl, twoTargets_lua _ 4 (by decide)⟩) 6 rfl ?_⟩
  simp [twoTargets, registerTarget, registerLuaSource, registerHardCodedSource, setHardCoded]

/-- and 5 from nowhere -/
example : ∃ e', resolveInputs (demo3 false) [()] threeTargets = (e', .ok false) ∧ 5 ∈ (e'.st ()).failed := by
  obtain ⟨e', h⟩ := threeTargets_resolve false
  refine ⟨e', h, ((C50_priority (demo3 false) (by simp) h (by simp) rfl (by simp [threeTargets_targets])).2.2
    (.inr ⟨_, rfl, twoTargets_lua _ 5 (by decide)⟩) (.inr ?_)).1⟩
  simp [threeTargets, twoTargets, registerTarget, registerLuaSource, registerHardCodedSource, setHardCoded, fresh]

/-- C50, function types: the same, except that a default does not replace a function already in
the registry (see `C52_function_default_fails`) -/
theorem C50_priority_function (env : Env K Ty L Val) {tys : List Ty} (hnd : tys.Nodup) {e e' : Engine K Ty L Val} {b : Bool}
    (h : resolveInputs env tys e = (e', .ok b)) {τ : Ty} (hτ : τ ∈ tys) (hf : env.isFun τ = true)
    {k : K} (hk : k ∈ (e.st τ).targets) :
    (∀ v, LuaGives env e τ k v → getValue τ k e' = .ok v) ∧
    (LuaSilent env e τ k → ∀ d, e.hc = true → e.hcData τ k = some d →
      getValue τ k e' = .ok (((e.st τ).reg k).getD d)) := by
  obtain ⟨org, ho, _, _, hb, _, hτs⟩ := resolveInputs_ok env hnd h
  obtain ⟨_, _, hfail, hreg, _⟩ := hτs τ hτ
  have hk1 := ho τ hτ k hk
  refine ⟨fun v hl => ?_, fun hl d hhc hd => ?_⟩
  · rw [origin_lua hl] at hk1
    obtain hk1 := Option.some.inj hk1
    rw [getValue, (hreg k hk).1, ← hk1]
    rfl
  · rw [origin_silent hl, hhc, hd] at hk1
    obtain hk1 := Option.some.inj hk1
    rw [getValue, (hreg k hk).1, ← hk1, hf]
    cases (e.st τ).reg k <;> rfl

example : ∃ e', resolveInputs (demo3 true) [()] twoTargets = (e', .ok true) ∧
    getValue () 3 e' = .ok 7 ∧ getValue () 4 e' = .ok 6 := by
  obtain ⟨e', h⟩ := twoTargets_resolve true
  refine ⟨e', h, (C50_priority_function (demo3 true) (by simp) h (by simp) rfl (by simp [twoTargets_targets])).1 7
      ⟨_, rfl, twoTargets_lua _ 3 (by decide)⟩,
    (C50_priority_function (demo3 true) (by simp) h (by simp) rfl (by simp [twoTargets_targets])).2
      (.inr ⟨_, rfl, twoTargets_lua _ 4 (by decide)⟩) 6 rfl ?_⟩
  simp [twoTargets, registerTarget, registerLuaSource, registerHardCodedSource, setHardCoded]

/-- **C50** `get_instant_value` asks the same sources in the same order, whether or not the key is a
target: the Lua value if there is one, else the default (for function types: unless one is in the
registry), else a `runtime_error`; no other key gets another value, nor does this one if the call
fails -/
theorem C50_instant (env : Env K Ty L Val) (τ : Ty) (k : K) (e : Engine K Ty L Val) :
    (∀ v, LuaGives env e τ k v → (getInstantValue env τ k e).2 = .ok v ∧
      getValue τ k (getInstantValue env τ k e).1 = .ok v) ∧
    (LuaSilent env e τ k → ∀ d, e.hc = true → e.hcData τ k = some d →
      (getInstantValue env τ k e).2 = .ok (if env.isFun τ then ((e.st τ).reg k).getD d else d)) ∧
    (LuaSilent env e τ k → (e.hc = false ∨ e.hcData τ k = none) →
      (getInstantValue env τ k e).2 = .throws "runtime_error" ∧
      getValue τ k (getInstantValue env τ k e).1 = getValue τ k e) ∧
    (∀ σ j, σ ≠ τ ∨ j ≠ k → getValue σ j (getInstantValue env τ k e).1 = getValue σ j e) := by
  refine ⟨?_, ?_, ?_, ?_⟩
  · rintro v ⟨ls, hl, hg⟩
    simp [getInstantValue, lookup, hl, hg, getValue, Engine.setSlot]
  · intro hs d hhc hd
    rcases hs with hl | ⟨ls, hl, hg⟩ <;>
      cases hf : env.isFun τ <;> cases hr : (e.st τ).reg k <;>
      simp_all [getInstantValue, lookup, getValue, Engine.setSlot, Engine.slot]
  · intro hs hn
    rcases hs with hl | ⟨ls, hl, hg⟩ <;> rcases hn with hn | hn <;> cases hhc : e.hc <;>
      simp_all [getInstantValue, lookup, getValue, Engine.setSlot, Engine.slot]
  · intro σ j hj
    by_cases hσ : σ = τ
    · subst hσ
      have hj : j ≠ k := by simpa using hj
      have key : ((lookup env e.lua e.hc σ k (e.slot σ)).1).st.reg j = (e.st σ).reg j := by
        show _ = (e.slot σ).st.reg j
        generalize e.slot σ = s
        cases hb : env.isFun σ && (s.st.reg k).isSome <;>
          simp only [lookup, hb] <;> repeat' split
        all_goals simp_all [Function.update_of_ne]
      have : ((getInstantValue env σ k e).1.st σ) = ((lookup env e.lua e.hc σ k (e.slot σ)).1).st := by
        simp only [getInstantValue]
        split <;> simp_all [Engine.setSlot]
      rw [getValue, getValue, this, key]
    · have : (getInstantValue env τ k e).1.st σ = e.st σ := by
        simp only [getInstantValue]
        split <;> simp [Engine.setSlot, Function.update_of_ne hσ]
      rw [getValue, getValue, this]

/-- 3 from Lua, 4 from its default, 5 from nowhere, none of them a target of the fresh registry -/
example : (getInstantValue (demo3 false) () 3 twoTargets).2 = .ok 7 ∧
    (getInstantValue (demo3 false) () 4 twoTargets).2 = .ok 6 ∧
    (getInstantValue (demo3 false) () 5 twoTargets).2 = .throws "runtime_error" := by
  refine ⟨((C50_instant (demo3 false) () 3 twoTargets).1 7 ⟨_, rfl, twoTargets_lua _ 3 (by decide)⟩).1,
    (C50_instant (demo3 false) () 4 twoTargets).2.1 (.inr ⟨_, rfl, twoTargets_lua _ 4 (by decide)⟩) 6 rfl ?_,
    ((C50_instant (demo3 false) () 5 twoTargets).2.2.1 (.inr ⟨_, rfl, twoTargets_lua _ 5 (by decide)⟩) (.inr ?_)).1⟩
  all_goals simp [twoTargets, registerTarget, registerLuaSource, registerHardCodedSource, setHardCoded, fresh]

/-- C50: resolving a target leaves what is not a target alone -/
theorem C50_frame (env : Env K Ty L Val) {tys : List Ty} (hnd : tys.Nodup) {e e' : Engine K Ty L Val} {b : Bool}
    (h : resolveInputs env tys e = (e', .ok b)) (τ : Ty) (k : K) (hk : τ ∉ tys ∨ k ∉ (e.st τ).targets) :
    getValue τ k e' = getValue τ k e := by
  obtain ⟨org, ho, _, _, hb, hout, hτs⟩ := resolveInputs_ok env hnd h
  by_cases hτ : τ ∈ tys
  · rcases hk with hk | hk
    · exact absurd hτ hk
    · obtain ⟨_, _, _, _, hreg⟩ := hτs τ hτ
      rw [getValue, getValue, (hreg k hk).1]
  · have := hout τ hτ
    simp only [Engine.slot, Slot.mk.injEq] at this
    rw [getValue, getValue, this.1]

example : ∃ e', resolveInputs (demo3 false) [()] twoTargets = (e', .ok true) ∧
    getValue () 5 e' = getValue () 5 twoTargets := by
  obtain ⟨e', h⟩ := twoTargets_resolve false
  exact ⟨e', h, C50_frame (demo3 false) (by simp) h () 5 (.inr (by simp [twoTargets_targets]))⟩

/-- register several targets, in this order -/
def registerAll (l : List (Ty × K)) (e : Engine K Ty L Val) : Engine K Ty L Val :=
  l.foldl (fun e p => registerTarget p.1 p.2 e) e

theorem registerAll_eq (l : List (Ty × K)) (e : Engine K Ty L Val) :
    registerAll l e = { e with st := fun τ => { e.st τ with
      targets := (e.st τ).targets ∪ ((l.filter fun p => p.1 = τ).map (·.2)).toFinset } } := by
  induction l generalizing e with
  | nil => simp [registerAll]
  | cons p l ih =>
    rw [registerAll, List.foldl_cons, ← registerAll, ih]
    simp only [registerTarget, Engine.mk.injEq, and_true]
    funext τ
    by_cases h : τ = p.1
    · subst h
      simp [Finset.insert_union, Finset.union_insert]
    · have h' : ¬ p.1 = τ := fun e => h e.symm
      simp [h, h']

/-- C50: the order in which targets are registered, and repetitions, do not matter -/
theorem C50_registration_order (l l' : List (Ty × K)) (hl : ∀ p, p ∈ l ↔ p ∈ l') (e : Engine K Ty L Val) :
    registerAll l e = registerAll l' e := by
  rw [registerAll_eq, registerAll_eq]
  have : ∀ τ, ((l.filter fun p => p.1 = τ).map (·.2)).toFinset = ((l'.filter fun p => p.1 = τ).map (·.2)).toFinset := by
    intro τ
    ext k
    simp [hl]
  simp only [this]

example (e : Engine Nat Unit Nat fun _ => Nat) :
    registerAll [((), 3), ((), 4), ((), 3)] e = registerAll [((), 4), ((), 3)] e :=
  C50_registration_order _ _ (by simp) e

/-! ## C51 -/

/-- C51: `resolve_inputs()` returns true exactly when each registered target of each type was
found by one of the sources in this call -/
theorem C51_true_iff (env : Env K Ty L Val) {tys : List Ty} (hnd : tys.Nodup) {e e' : Engine K Ty L Val} {b : Bool}
    (h : resolveInputs env tys e = (e', .ok b)) :
    b = true ↔ ∀ τ ∈ tys, ∀ k ∈ (e.st τ).targets,
      (∃ v, LuaGives env e τ k v) ∨ (LuaSilent env e τ k ∧ e.hc = true ∧ ∃ d, e.hcData τ k = some d) := by
  obtain ⟨org, ho, _, _, hb, _, _⟩ := resolveInputs_ok env hnd h
  rw [hb]
  apply forall₂_congr
  intro τ hτ
  apply forall₂_congr
  intro k hk
  have hk1 := ho τ hτ k hk
  cases hlua : e.lua with
  | none =>
    have hs : LuaSilent env e τ k := .inl hlua
    have hg : ¬ ∃ v, LuaGives env e τ k v := by rintro ⟨v, ls, h, _⟩; rw [hlua] at h; simp at h
    rw [origin_silent hs] at hk1
    rw [← Option.some.inj hk1]
    cases hhc : e.hc <;> cases hd : e.hcData τ k <;> simp [Origin.isNowhere, hg, hs]
  | some ls =>
    cases hget : ls.get env τ k with
    | ok r =>
      cases r with
      | none =>
        have hs : LuaSilent env e τ k := .inr ⟨ls, hlua, hget⟩
        have hg : ¬ ∃ v, LuaGives env e τ k v := by
          rintro ⟨v, ls', h, h'⟩
          rw [hlua] at h
          obtain rfl := Option.some.inj h
          rw [hget] at h'; simp at h'
        rw [origin_silent hs] at hk1
        rw [← Option.some.inj hk1]
        cases hhc : e.hc <;> cases hd : e.hcData τ k <;> simp [Origin.isNowhere, hg, hs]
      | some v =>
        have hg : LuaGives env e τ k v := ⟨ls, hlua, hget⟩
        rw [origin_lua hg] at hk1
        rw [← Option.some.inj hk1]
        exact ⟨fun _ => .inl ⟨v, hg⟩, fun _ => rfl⟩
    | _ => simp [origin, hlua, hget] at hk1

/-- the third target has neither -/
example : ∃ e', resolveInputs (demo3 false) [()] threeTargets = (e', .ok false) ∧
    ¬ ∀ τ ∈ [()], ∀ k ∈ (threeTargets.st τ).targets, (∃ v, LuaGives (demo3 false) threeTargets τ k v) ∨
      (LuaSilent (demo3 false) threeTargets τ k ∧ threeTargets.hc = true ∧ ∃ d, threeTargets.hcData τ k = some d) := by
  obtain ⟨e', h⟩ := threeTargets_resolve false
  exact ⟨e', h, fun hc => by simpa using (C51_true_iff (demo3 false) (by simp) h).2 hc⟩

/-- C51: after it returned true, every registered target can be read, and counts as resolved -/
theorem C51_get_after_true (env : Env K Ty L Val) {tys : List Ty} (hnd : tys.Nodup) {e e' : Engine K Ty L Val}
    (h : resolveInputs env tys e = (e', .ok true)) {τ : Ty} (hτ : τ ∈ tys) {k : K} (hk : k ∈ (e.st τ).targets) :
    (∃ v, getValue τ k e' = .ok v) ∧ resolved τ k e' = true := by
  obtain ⟨org, ho, _, _, hb, _, hτs⟩ := resolveInputs_ok env hnd h
  have hn := hb.mp rfl τ hτ k hk
  obtain ⟨_, hcalled, _, hreg, _⟩ := hτs τ hτ
  have h1 := (hreg k hk).1
  cases horg : org τ k with
  | nowhere => rw [horg] at hn; simp [Origin.isNowhere] at hn
  | lua v =>
    rw [horg] at h1
    exact ⟨⟨v, by rw [getValue, h1]; rfl⟩, by rw [resolved, hcalled, h1]; rfl⟩
  | hard v =>
    rw [horg] at h1
    by_cases hc : (env.isFun τ && ((e.st τ).reg k).isSome) = true
    · rw [Origin.entry, if_pos hc] at h1
      obtain ⟨w, hw⟩ := Option.isSome_iff_exists.mp (Bool.and_eq_true_iff.mp hc).2
      exact ⟨⟨w, by rw [getValue, h1, hw]⟩, by rw [resolved, hcalled, h1, hw]; rfl⟩
    · rw [Origin.entry, if_neg hc] at h1
      exact ⟨⟨v, by rw [getValue, h1]⟩, by rw [resolved, hcalled, h1]; rfl⟩

example : ∃ e', resolveInputs (demo3 false) [()] twoTargets = (e', .ok true) ∧ resolved () 4 e' = true := by
  obtain ⟨e', h⟩ := twoTargets_resolve false
  exact ⟨e', h, (C51_get_after_true (demo3 false) (by simp) h (by simp) (by simp [twoTargets_targets])).2⟩

/-! ### histories -/

/-- what a program does with the engine -/
inductive Cmd (K Ty L : Type) (Val : Ty → Type)
  | register (τ : Ty) (k : K)
  | setHard (τ : Ty) (entries : List (K × Val τ))
  | luaSource (ls : LuaSource K L)
  | hardSource
  | resolve
  | clear
  | instant (τ : Ty) (k : K)
  /-- writing through the reference `get_value` returned -/
  | assign (τ : Ty) (k : K) (v : Val τ)

/-- its effect, exceptions caught -/
def Cmd.run (env : Env K Ty L Val) (tys : List Ty) (c : Cmd K Ty L Val) (e : Engine K Ty L Val) : Engine K Ty L Val :=
  match c with
  | .register τ k => registerTarget τ k e
  | .setHard τ es => setHardCoded τ es e
  | .luaSource ls => registerLuaSource ls e
  | .hardSource => registerHardCodedSource e
  | .resolve => (resolveInputs env tys e).1
  | .clear => clearRegistry tys e
  | .instant τ k => (getInstantValue env τ k e).1
  | .assign τ k v =>
    if ((e.st τ).reg k).isSome then
      { e with st := Function.update e.st τ { e.st τ with reg := Function.update (e.st τ).reg k (some v) } }
    else e

/-- a history, oldest first -/
def runHistory (env : Env K Ty L Val) (tys : List Ty) (h : List (Cmd K Ty L Val)) (e : Engine K Ty L Val) :
    Engine K Ty L Val := h.foldl (fun e c => c.run env tys e) e

theorem lookup_reg (env : Env K Ty L Val) (lua : Option (LuaSource K L)) (hc : Bool) (τ : Ty) (k : K)
    (s : Slot K (Val τ)) : (lookup env lua hc τ k s).1.st.targets = s.st.targets ∧
      ∀ k', ((lookup env lua hc τ k s).1.st.reg k').isSome → (s.st.reg k').isSome ∨ k' = k := by
  have h := lookup_eq env lua hc τ k s
  cases ho : origin env lua hc τ s.hcData k with
  | none => rw [ho] at h; simp only at h; rw [h.1]; exact ⟨rfl, fun _ h => .inl h⟩
  | some o =>
    rw [ho] at h; simp only at h; rw [h]
    refine ⟨rfl, fun k' => ?_⟩
    by_cases e : k' = k
    · exact fun _ => .inr e
    · simp only [Function.update_of_ne e]; exact .inl

theorem resolveLoop_reg (env : Env K Ty L Val) (lua : Option (LuaSource K L)) (hc : Bool) (τ : Ty) (ks : List K)
    (m : Bool) (s : Slot K (Val τ)) : (resolveLoop env lua hc τ ks m s).1.st.targets = s.st.targets ∧
      ∀ k', ((resolveLoop env lua hc τ ks m s).1.st.reg k').isSome → (s.st.reg k').isSome ∨ k' ∈ ks := by
  induction ks generalizing m s with
  | nil => exact ⟨rfl, fun _ h => .inl h⟩
  | cons k ks ih =>
    have h1 := lookup_reg env lua hc τ k s
    rw [resolveLoop]
    rcases hl : lookup env lua hc τ k s with ⟨s', r⟩
    rw [hl] at h1
    cases r with
    | ok f =>
      cases f with
      | yes =>
        have h2 := ih m s'
        refine ⟨h2.1.trans h1.1, fun k' hk' => ?_⟩
        rcases h2.2 k' hk' with h | h
        · rcases h1.2 k' h with h | h
          · exact .inl h
          · exact .inr (by simp [h])
        · exact .inr (by simp [h])
      | no =>
        have h2 := ih true { s' with st := { s'.st with failed := insert k s'.st.failed } }
        refine ⟨h2.1.trans h1.1, fun k' hk' => ?_⟩
        rcases h2.2 k' hk' with h | h
        · rcases h1.2 k' h with h | h
          · exact .inl h
          · exact .inr (by simp [h])
        · exact .inr (by simp [h])
    | _ => exact ⟨h1.1, fun k' hk' => (h1.2 k' hk').imp id (by rintro rfl; simp)⟩

theorem resolveType_reg (env : Env K Ty L Val) (lua : Option (LuaSource K L)) (hc : Bool) (τ : Ty)
    (s : Slot K (Val τ)) : (resolveType env lua hc τ s).1.st.targets = s.st.targets ∧
      ∀ k', ((resolveType env lua hc τ s).1.st.reg k').isSome → (s.st.reg k').isSome ∨ k' ∈ s.st.targets := by
  have h := resolveLoop_reg env lua hc τ (s.st.targets.sort (· ≤ ·)) false s
  rw [resolveType]
  rcases hl : resolveLoop env lua hc τ (s.st.targets.sort (· ≤ ·)) false s with ⟨s', r⟩
  rw [hl] at h
  simp only [Finset.mem_sort] at h
  cases r <;> exact h

theorem resolveTypes_reg (env : Env K Ty L Val) (tys : List Ty) (e : Engine K Ty L Val) (τ : Ty) :
    ((resolveTypes env tys e).1.st τ).targets = (e.st τ).targets ∧
      ∀ k', (((resolveTypes env tys e).1.st τ).reg k').isSome → ((e.st τ).reg k').isSome ∨ k' ∈ (e.st τ).targets := by
  induction tys generalizing e with
  | nil => exact ⟨rfl, fun _ h => .inl h⟩
  | cons τ' τs ih =>
    have h1 := resolveType_reg env e.lua e.hc τ' (e.slot τ')
    rw [resolveTypes]
    rcases hl : resolveType env e.lua e.hc τ' (e.slot τ') with ⟨s, r⟩
    rw [hl] at h1
    have h2 : ((e.setSlot τ' s).st τ).targets = (e.st τ).targets ∧
        ∀ k', (((e.setSlot τ' s).st τ).reg k').isSome → ((e.st τ).reg k').isSome ∨ k' ∈ (e.st τ).targets := by
      by_cases h : τ = τ'
      · subst h
        simpa [Engine.setSlot, Engine.slot] using h1
      · simp only [Engine.setSlot, Function.update_of_ne h]
        exact ⟨trivial, fun _ h => .inl h⟩
    cases r with
    | ok b =>
      have h3 := ih (e.setSlot τ' s)
      have h4 : ((resolveTypes env τs (e.setSlot τ' s)).1.st τ).targets = (e.st τ).targets ∧
          ∀ k', (((resolveTypes env τs (e.setSlot τ' s)).1.st τ).reg k').isSome →
            ((e.st τ).reg k').isSome ∨ k' ∈ (e.st τ).targets := by
        refine ⟨h3.1.trans h2.1, fun k' hk' => ?_⟩
        rcases h3.2 k' hk' with h | h
        · exact h2.2 k' h
        · rw [h2.1] at h; exact .inr h
      simp only
      rcases hq : resolveTypes env τs (e.setSlot τ' s) with ⟨e', r'⟩
      rw [hq] at h4
      cases r' <;> exact h4
    | _ => exact h2

/-- C51: `get_value` of a name that was never asked for throws: in every history, a name has a
value only if, since the last `clear_registry()`, it was registered as a target of that type or
requested by `get_instant_value` -/
theorem C51_unknown_throws (env : Env K Ty L Val) (tys : List Ty) (hall : ∀ τ, τ ∈ tys) (h : List (Cmd K Ty L Val))
    (τ : Ty) (k : K) (v : Val τ) (hv : getValue τ k (runHistory env tys h fresh) = .ok v) :
    ∃ (h1 : List (Cmd K Ty L Val)) (c : Cmd K Ty L Val) (h2 : List (Cmd K Ty L Val)), h = h1 ++ c :: h2 ∧ (c = .register τ k ∨ c = .instant τ k) ∧ Cmd.clear ∉ h2 := by
  have key : ∀ h : List (Cmd K Ty L Val),
      (k ∈ ((runHistory env tys h fresh).st τ).targets ∨ (((runHistory env tys h fresh).st τ).reg k).isSome) →
      ∃ (h1 : List (Cmd K Ty L Val)) (c : Cmd K Ty L Val) (h2 : List (Cmd K Ty L Val)), h = h1 ++ c :: h2 ∧ (c = .register τ k ∨ c = .instant τ k) ∧ Cmd.clear ∉ h2 := by
    intro h
    induction h using List.reverseRecOn with
    | nil => rintro (h | h) <;> simp [runHistory, fresh] at h
    | append_singleton h c ih =>
      intro hc
      -- either it was there before, or `c` asks for it
      have hcase : (c = .register τ k ∨ c = .instant τ k) ∨ (c ≠ .clear ∧
          (k ∈ ((runHistory env tys h fresh).st τ).targets ∨ (((runHistory env tys h fresh).st τ).reg k).isSome)) := by
        have hrun : runHistory env tys (h ++ [c]) fresh = c.run env tys (runHistory env tys h fresh) := by
          simp [runHistory]
        rw [hrun] at hc
        generalize runHistory env tys h fresh = e at hc ⊢
        cases c with
        | register τ' k' =>
          by_cases hτ : τ = τ'
          · subst hτ
            by_cases hk : k = k'
            · subst hk; exact .inl (.inl rfl)
            · refine .inr ⟨by simp, ?_⟩
              simpa [Cmd.run, registerTarget, hk] using hc
          · refine .inr ⟨by simp, ?_⟩
            simpa [Cmd.run, registerTarget, hτ] using hc
        | setHard τ' es => exact .inr ⟨by simp, by simpa [Cmd.run, setHardCoded] using hc⟩
        | luaSource ls => exact .inr ⟨by simp, by simpa [Cmd.run, registerLuaSource] using hc⟩
        | hardSource => exact .inr ⟨by simp, by simpa [Cmd.run, registerHardCodedSource] using hc⟩
        | resolve =>
          refine .inr ⟨by simp, ?_⟩
          have h1 := resolveTypes_reg env tys e τ
          have h2 : (resolveInputs env tys e).1 = (resolveTypes env tys e).1 := by
            rw [resolveInputs]
            rcases resolveTypes env tys e with ⟨e', r⟩
            cases r <;> rfl
          rw [Cmd.run, h2, h1.1] at hc
          rcases hc with hc | hc
          · exact .inl hc
          · exact (h1.2 k hc).symm
        | clear => simp [Cmd.run, clearRegistry, hall] at hc
        | instant τ' k' =>
          by_cases hτk : τ = τ' ∧ HEq k k'
          · obtain ⟨rfl, hk⟩ := hτk
            obtain rfl := eq_of_heq hk
            exact .inl (.inr rfl)
          · refine .inr ⟨by simp, ?_⟩
            have h1 := lookup_reg env e.lua e.hc τ' k' (e.slot τ')
            have h2 : (getInstantValue env τ' k' e).1 = e.setSlot τ' (lookup env e.lua e.hc τ' k' (e.slot τ')).1 := by
              rw [getInstantValue]
              rcases lookup env e.lua e.hc τ' k' (e.slot τ') with ⟨s, r⟩
              cases r with
              | ok f => cases f <;> rfl
              | _ => rfl
            rw [Cmd.run, h2] at hc
            by_cases hτ : τ = τ'
            · subst hτ
              have hk : k ≠ k' := by rintro rfl; exact hτk ⟨rfl, HEq.rfl⟩
              simp only [Engine.setSlot, Function.update_self] at hc
              rw [h1.1] at hc
              rcases hc with hc | hc
              · exact .inl hc
              · rcases h1.2 k hc with h | h
                · exact .inr h
                · exact absurd h hk
            · simpa [Engine.setSlot, hτ] using hc
        | assign τ' k' v' =>
          refine .inr ⟨by simp, ?_⟩
          rw [Cmd.run] at hc
          split at hc
          · next hs =>
            by_cases hτ : τ = τ'
            · subst hτ
              by_cases hk : k = k'
              · subst hk; exact .inr hs
              · simpa [hk] using hc
            · simpa [hτ] using hc
          · exact hc
      rcases hcase with hcase | ⟨hne, hcase⟩
      · exact ⟨h, c, [], rfl, hcase, by simp⟩
      · obtain ⟨h1, c', h2, he, hc', hcl⟩ := ih hcase
        refine ⟨h1, c', h2 ++ [c], by rw [he]; simp, hc', ?_⟩
        simp only [List.mem_append, List.mem_singleton, not_or]
        exact ⟨hcl, fun e => hne e.symm⟩
  apply key
  right
  rw [getValue] at hv
  cases hr : ((runHistory env tys h fresh).st τ).reg k with
  | none => rw [hr] at hv; simp at hv
  | some w => rfl

/-- a name is registered, resolved, and the registry cleared -/
example (env : Env Nat Unit Nat fun _ => Nat) (v : Nat) :
    getValue () 4 (runHistory env [()] [.register () 4, .resolve, .clear] fresh) ≠ .ok v := fun h => by
  obtain ⟨h1, c, h2, e, hc, hn⟩ := C51_unknown_throws env [()] (by simp) _ () 4 v h
  rcases h1 with _ | ⟨_, _ | ⟨_, _ | ⟨_, _ | ⟨_, h1⟩⟩⟩⟩ <;> simp at e
  · obtain ⟨_, rfl⟩ := e; simp at hn
  · obtain ⟨_, rfl, rfl⟩ := e; simp at hn
  · obtain ⟨_, _, rfl, rfl⟩ := e; simp at hc

/-! ## C52 -/

/-- what the second of two calls of `resolve_inputs()` does -/
theorem resolve_twice (env : Env K Ty L Val) {tys : List Ty} (hnd : tys.Nodup) {e e1 : Engine K Ty L Val} {b : Bool}
    (h : resolveInputs env tys e = (e1, .ok b)) :
    ∃ (e2 : Engine K Ty L Val) (org : ∀ τ, K → Origin (Val τ)), resolveInputs env tys e1 = (e2, .ok b) ∧ Answered env tys e org ∧
      (∀ τ ∈ tys, env.isFun τ = false → ∀ k ∈ (e.st τ).targets, ∀ v, org τ k = .hard v →
        (e1.st τ).reg k = some v ∧ (e2.st τ).reg k = some (env.moved τ v)) ∧
      ∀ τ k, (τ ∈ tys → env.isFun τ = false → k ∈ (e.st τ).targets → ∀ v, org τ k ≠ .hard v) →
        (e2.st τ).reg k = (e1.st τ).reg k := by
  obtain ⟨org, ho, hlua, hhc, hb, hout, hτs⟩ := resolveInputs_ok env hnd h
  -- the sources answer the second time, in kind
  let org2 : ∀ τ, K → Origin (Val τ) := fun τ k => match org τ k with
    | .lua v => .lua v
    | .hard v => .hard (env.moved τ v)
    | .nowhere => .nowhere
  have ho2 : Answered env tys e1 org2 := by
    intro τ hτ k hk
    obtain ⟨ht, _, _, hreg, _⟩ := hτs τ hτ
    rw [ht] at hk
    have h1 := ho τ hτ k hk
    have h2 := (hreg k hk).2
    simp only [origin] at h1 ⊢
    rw [hlua, hhc, h2]
    cases horg : org τ k with
    | lua v =>
      rw [horg] at h1
      simp only [org2, horg, Origin.left]
      exact h1
    | hard v =>
      rw [horg] at h1
      simp only [org2, horg, Origin.left]
      cases hl : e.lua with
      | none =>
        rw [hl] at h1
        cases hh : e.hc <;> cases hd : e.hcData τ k <;> simp_all
      | some ls =>
        rw [hl] at h1
        cases hg : ls.get env τ k with
        | ok r => cases r <;> cases hh : e.hc <;> cases hd : e.hcData τ k <;> simp_all
        | _ => simp [hg] at h1
    | nowhere =>
      rw [horg] at h1
      simp only [org2, horg, Origin.left]
      exact h1
  obtain ⟨e2, b2, h2⟩ := resolveInputs_returns env hnd ho2
  obtain ⟨org3, ho3, _, _, hb3, hout3, hτs3⟩ := resolveInputs_ok env hnd h2
  have horg3 : ∀ τ ∈ tys, ∀ k ∈ (e1.st τ).targets, org3 τ k = org2 τ k := by
    intro τ hτ k hk
    have := ho3 τ hτ k hk
    rw [ho2 τ hτ k hk] at this
    exact (Option.some.inj this).symm
  have hnow : ∀ τ k, (org2 τ k).isNowhere = (org τ k).isNowhere := by
    intro τ k
    simp only [org2]
    cases org τ k <;> rfl
  have hbb : b2 = b := by
    have : b2 = true ↔ b = true := by
      rw [hb, hb3]
      constructor
      · intro h τ hτ k hk
        have hk1 : k ∈ (e1.st τ).targets := by rw [(hτs τ hτ).1]; exact hk
        rw [← hnow, ← horg3 τ hτ k hk1]; exact h τ hτ k hk1
      · intro h τ hτ k hk1
        have hk := hk1
        rw [(hτs τ hτ).1] at hk
        rw [horg3 τ hτ k hk1, hnow]; exact h τ hτ k hk
    cases b <;> cases b2 <;> simp_all
  refine ⟨e2, org, by rw [h2, hbb], ho, ?_, ?_⟩
  · intro τ hτ hf k hk v hv
    obtain ⟨ht, _, _, hreg, _⟩ := hτs τ hτ
    obtain ⟨_, _, _, hreg3, _⟩ := hτs3 τ hτ
    have hk1 : k ∈ (e1.st τ).targets := by rw [ht]; exact hk
    rw [(hreg3 k hk1).1, horg3 τ hτ k hk1, (hreg k hk).1]
    simp [org2, hv, Origin.entry, hf]
  · intro τ k hnot
    by_cases hτ : τ ∈ tys
    · obtain ⟨ht, _, _, hreg, hnreg⟩ := hτs τ hτ
      obtain ⟨_, _, _, hreg3, hnreg3⟩ := hτs3 τ hτ
      by_cases hk : k ∈ (e.st τ).targets
      · have hk1 : k ∈ (e1.st τ).targets := by rw [ht]; exact hk
        rw [(hreg3 k hk1).1, horg3 τ hτ k hk1]
        have h1 := (hreg k hk).1
        cases horg : org τ k with
        | lua v =>
          rw [horg] at h1
          simp only [org2, horg]
          rw [h1]; rfl
        | hard v =>
          rw [horg] at h1
          simp only [org2, horg]
          have hm : env.isFun τ = true := by
            by_contra hf
            exact hnot hτ (by simpa using hf) hk v horg
          have hs : ((e1.st τ).reg k).isSome := by
            rw [h1, Origin.entry]
            split
            · next hc => exact (Bool.and_eq_true_iff.mp hc).2
            · rfl
          rw [Origin.entry, hm, hs]
          rfl
        | nowhere =>
          simp only [org2, horg]
          rfl
      · have hk1 : k ∉ (e1.st τ).targets := by rw [ht]; exact hk
        rw [(hnreg3 k hk1).1]
    · have := hout3 τ hτ
      simp only [Engine.slot, Slot.mk.injEq] at this
      rw [this.1]

theorem origin_hard_iff (env : Env K Ty L Val) (e : Engine K Ty L Val) (τ : Ty) (k : K) (v : Val τ) :
    origin env e.lua e.hc τ (e.hcData τ) k = some (.hard v) ↔
      LuaSilent env e τ k ∧ e.hc = true ∧ e.hcData τ k = some v := by
  simp only [origin, LuaSilent]
  cases hl : e.lua with
  | none => cases hh : e.hc <;> cases hd : e.hcData τ k <;> simp
  | some ls =>
    cases hg : ls.get env τ k with
    | ok r => cases r <;> cases hh : e.hc <;> cases hd : e.hcData τ k <;> simp [hg]
    | _ => simp [hg]

/-- **C52** exactly: resolving again without touching the sources returns the same result, and every value is what it was if
and only if moving changes none of the hard-coded defaults that were used (those Lua has no value for, of types that are not
functions) -/
theorem C52_repeatable_iff (env : Env K Ty L Val) {tys : List Ty} (hnd : tys.Nodup) {e e1 : Engine K Ty L Val} {b : Bool}
    (h : resolveInputs env tys e = (e1, .ok b)) :
    ∃ e2, resolveInputs env tys e1 = (e2, .ok b) ∧ ((∀ τ k, getValue τ k e2 = getValue τ k e1) ↔
      ∀ τ ∈ tys, env.isFun τ = false → ∀ k ∈ (e.st τ).targets, LuaSilent env e τ k → e.hc = true →
        ∀ v, e.hcData τ k = some v → env.moved τ v = v) := by
  obtain ⟨e2, org, h2, ho, hh, hn⟩ := resolve_twice env hnd h
  refine ⟨e2, h2, ?_⟩
  constructor
  · intro hall τ hτ hf k hk hs hc v hv
    have h1 := (origin_hard_iff env e τ k v).mpr ⟨hs, hc, hv⟩
    rw [ho τ hτ k hk, Option.some.injEq] at h1
    obtain ⟨a, b⟩ := hh τ hτ hf k hk v h1
    have := hall τ k
    rw [getValue, getValue, a, b] at this
    simpa using this
  · intro hm τ k
    rw [getValue, getValue]
    by_cases hc : τ ∈ tys ∧ env.isFun τ = false ∧ k ∈ (e.st τ).targets ∧ ∃ v, org τ k = .hard v
    · obtain ⟨hτ, hf, hk, v, hv⟩ := hc
      obtain ⟨a, b⟩ := hh τ hτ hf k hk v hv
      obtain ⟨h3, h4, h5⟩ := (origin_hard_iff env e τ k v).mp (by rw [ho τ hτ k hk, hv])
      rw [a, b, hm τ hτ hf k hk h3 h4 v h5]
    · rw [hn τ k fun hτ hf hk v hv => hc ⟨hτ, hf, hk, v, hv⟩]

/-- C52 as far as it holds: resolving again without touching the sources changes no value and
returns the same result, for value types whose moved-from state is the value itself (numbers and
other trivial types) and for function types.  (Missing: strings, vectors and other types that
moving empties, see `C52_moved_default_fails`; the exact condition is `C52_repeatable_iff`.) -/
theorem C52_repeatable_partial (env : Env K Ty L Val) {tys : List Ty} (hnd : tys.Nodup)
    (hm : ∀ τ ∈ tys, env.isFun τ = true ∨ env.moved τ = id) {e e1 : Engine K Ty L Val} {b : Bool}
    (h : resolveInputs env tys e = (e1, .ok b)) :
    ∃ e2, resolveInputs env tys e1 = (e2, .ok b) ∧ ∀ τ k, getValue τ k e2 = getValue τ k e1 := by
  obtain ⟨e2, h2, h3⟩ := C52_repeatable_iff env hnd h
  refine ⟨e2, h2, h3.mpr fun τ hτ hf k _ _ _ v _ => ?_⟩
  rcases hm τ hτ with h | h
  · rw [h] at hf; cases hf
  · rw [h]; rfl

example : ∃ e1 e2, resolveInputs (demo3 false) [()] twoTargets = (e1, .ok true) ∧
    resolveInputs (demo3 false) [()] e1 = (e2, .ok true) ∧ ∀ τ k, getValue τ k e2 = getValue τ k e1 := by
  obtain ⟨e1, h⟩ := twoTargets_resolve false
  obtain ⟨e2, h2, h3⟩ := C52_repeatable_partial (demo3 false) (by simp) (fun _ _ => .inr rfl) h
  exact ⟨e1, e2, h, h2, h3⟩

/-- C52: after replacing a hard-coded value of a value type, the next resolve returns the new one
(when Lua has none), whatever happened before -/
theorem C52_new_default (env : Env K Ty L Val) {tys : List Ty} (hnd : tys.Nodup) {τ : Ty} (hτ : τ ∈ tys)
    (hf : env.isFun τ = false) (e : Engine K Ty L Val) (entries entries' : List (K × Val τ)) (k : K) (v : Val τ)
    (hk : k ∈ (e.st τ).targets) (hlast : ∀ p ∈ entries', p.1 ≠ k) (hhc : e.hc = true) (hs : LuaSilent env e τ k)
    {e' : Engine K Ty L Val} {b : Bool}
    (h : resolveInputs env tys (setHardCoded τ (entries ++ (k, v) :: entries') e) = (e', .ok b)) :
    getValue τ k e' = .ok v := by
  have hd : (setHardCoded τ (entries ++ (k, v) :: entries') e).hcData τ k = some v := by
    simp only [setHardCoded, Function.update_self, List.foldl_append, List.foldl_cons]
    generalize (entries.foldl (fun (m : K → Option (Val τ)) p => Function.update m p.1 (some p.2)) (e.hcData τ)) = m
    have : ∀ (m : K → Option (Val τ)), m k = some v →
        (entries'.foldl (fun (m : K → Option (Val τ)) p => Function.update m p.1 (some p.2)) m) k = some v := by
      clear h
      induction entries' with
      | nil => intro m hm; exact hm
      | cons p l ih =>
        intro m hm
        rw [List.foldl_cons]
        apply ih (fun q hq => hlast q (by simp [hq]))
        rw [Function.update_of_ne (fun e => hlast p (by simp) e.symm)]
        exact hm
    exact this _ (by simp)
  exact (C50_priority env hnd h hτ hf hk).2.1 hs v hhc hd

/-- a default replaced: the last entry counts -/
example : ∃ e', resolveInputs (demo3 false) [()] (setHardCoded () [(4, 1), (4, 8), (3, 2)] twoTargets) = (e', .ok true) ∧
    getValue () 4 e' = .ok 8 := by
  have hs : ({3, 4} : Finset Nat).sort (· ≤ ·) = [3, 4] :=
    (List.toFinset_sort (r := (· ≤ ·)) (l := [3, 4]) (by decide)).2 (by decide)
  have ht := twoTargets_targets
  have h : ∃ e', resolveInputs (demo3 false) [()] (setHardCoded () [(4, 1), (4, 8), (3, 2)] twoTargets) = (e', .ok true) := by
    simp [resolveInputs, resolveTypes, resolveType, Engine.slot, setHardCoded, ht, hs, resolveLoop, lookup]
    simp [twoTargets, registerTarget, registerHardCodedSource, setHardCoded, registerLuaSource, demoLua,
      LuaSource.get, slice, demo3, fresh]
  obtain ⟨e', h⟩ := h
  exact ⟨e', h, C52_new_default (demo3 false) (by simp) (by simp) rfl twoTargets [(4, 1)] [(3, 2)] 4 8
    (by simp [twoTargets_targets]) (by simp) rfl (.inr ⟨_, rfl, twoTargets_lua _ 4 (by decide)⟩) h⟩

/-- **C52** `set_registry` adds to what is there: a key it does not name keeps its earlier default,
and the next resolve returns it -/
theorem C52_kept_default (env : Env K Ty L Val) {tys : List Ty} (hnd : tys.Nodup) {τ : Ty} (hτ : τ ∈ tys)
    (hf : env.isFun τ = false) (e : Engine K Ty L Val) (σ : Ty) (entries : List (K × Val σ)) (k : K) (v : Val τ)
    (hk : k ∈ (e.st τ).targets) (hnot : σ = τ → ∀ p ∈ entries, p.1 ≠ k) (hhc : e.hc = true)
    (hs : LuaSilent env e τ k) (hv : e.hcData τ k = some v)
    {e' : Engine K Ty L Val} {b : Bool}
    (h : resolveInputs env tys (setHardCoded σ entries e) = (e', .ok b)) :
    getValue τ k e' = .ok v := by
  have hd : (setHardCoded σ entries e).hcData τ k = some v := by
    by_cases hστ : σ = τ
    · subst hστ
      have hnot := hnot rfl
      simp only [setHardCoded, Function.update_self]
      have : ∀ (m : K → Option (Val σ)), m k = some v →
          (entries.foldl (fun (m : K → Option (Val σ)) p => Function.update m p.1 (some p.2)) m) k = some v := by
        clear h
        induction entries with
        | nil => intro m hm; exact hm
        | cons p l ih =>
          intro m hm
          rw [List.foldl_cons]
          apply ih (fun _ q hq => hnot q (by simp [hq])) (fun q hq => hnot q (by simp [hq]))
          rw [Function.update_of_ne (fun e => hnot p (by simp) e.symm)]
          exact hm
      exact this _ hv
    · simp only [setHardCoded]
      rw [Function.update_of_ne (fun e => hστ e.symm)]
      exact hv
  exact (C50_priority env hnd h hτ hf hk).2.1 hs v hhc hd

/-- the default of 4 is still there after defaults for 3 and 5 have been set -/
example : ∃ e', resolveInputs (demo3 false) [()] (setHardCoded () [(3, 2), (5, 1)] twoTargets) = (e', .ok true) ∧
    getValue () 4 e' = .ok 6 := by
  have hs : ({3, 4} : Finset Nat).sort (· ≤ ·) = [3, 4] :=
    (List.toFinset_sort (r := (· ≤ ·)) (l := [3, 4]) (by decide)).2 (by decide)
  have ht := twoTargets_targets
  have h : ∃ e', resolveInputs (demo3 false) [()] (setHardCoded () [(3, 2), (5, 1)] twoTargets) = (e', .ok true) := by
    simp [resolveInputs, resolveTypes, resolveType, Engine.slot, setHardCoded, ht, hs, resolveLoop, lookup]
    simp [twoTargets, registerTarget, registerHardCodedSource, setHardCoded, registerLuaSource, demoLua,
      LuaSource.get, slice, demo3, fresh]
  obtain ⟨e', h⟩ := h
  exact ⟨e', h, C52_kept_default (demo3 false) (by simp) (by simp) rfl twoTargets () [(3, 2), (5, 1)] 4 6
    (by simp [twoTargets_targets]) (by simp) rfl (.inr ⟨_, rfl, twoTargets_lua _ 4 (by decide)⟩)
    (by simp [twoTargets, registerTarget, registerHardCodedSource, setHardCoded, registerLuaSource]) h⟩

end

/-! ## concrete programs -/

/-- C50 is false for a target the Lua source has never heard of: it has a hard-coded default, but
the Lua source throws instead of reporting that it has no value, and `resolve_inputs()` with it -/
theorem C50_unmapped_fails :
    let e : Engine Nat Unit Nat (fun _ => Nat) :=
      registerTarget () 20 (registerLuaSource (demoLua 7) (registerHardCodedSource (setHardCoded () [(20, 5)] fresh)))
    e.hc = true ∧ e.hcData () 20 = some 5 ∧
    (resolveInputs (demo false id) [()] e).2 = .throws "exception" ∧
    getValue () 20 (resolveInputs (demo false id) [()] e).1 = .throws "domain_error" := by
  have hs : ({20} : Finset Nat).sort (· ≤ ·) = [20] := Finset.sort_singleton _ _
  have ht : ∀ e : Engine Nat Unit Nat (fun _ => Nat), (e.st ()).targets = ∅ →
      ((registerTarget () 20 e).st ()).targets = {20} := by
    intro e he; simp [registerTarget, he]
  refine ⟨rfl, by simp [registerTarget, registerLuaSource, registerHardCodedSource, setHardCoded], ?_, ?_⟩ <;>
  · simp [resolveInputs, resolveTypes, resolveType, Engine.slot, registerTarget, registerLuaSource,
      registerHardCodedSource, setHardCoded, fresh, hs, resolveLoop, lookup, LuaSource.get, demoLua, missing, demo,
      Engine.setSlot, getValue]

/-- C51 is false in one direction: `resolve_inputs()` returns false although every registered
target has a value and counts as resolved, when an earlier resolve found the value and the
present sources do not -/
theorem C51_stale_fails :
    let env := demo false id
    let e0 : Engine Nat Unit Nat (fun _ => Nat) := registerLuaSource (demoLua 7) (registerTarget () 3 fresh)
    let e1 := (resolveInputs env [()] e0).1
    let e2 := (resolveInputs env [()] (registerLuaSource (demoLua 0) e1)).1
    (resolveInputs env [()] (registerLuaSource (demoLua 0) e1)).2 = .ok false ∧
    (e2.st ()).targets = {3} ∧ getValue () 3 e2 = .ok 7 ∧ resolved () 3 e2 = true := by
  have hs : ({3} : Finset Nat).sort (· ≤ ·) = [3] := Finset.sort_singleton _ _
  simp [resolveInputs, resolveTypes, resolveType, Engine.slot, registerTarget, registerLuaSource,
    fresh, hs, resolveLoop, lookup, LuaSource.get, demoLua, demo, Engine.setSlot, getValue, resolved, slice]

/-- C52 is false for types that moving empties: the first resolve gives the default 5, the second
what moving left of it -/
theorem C52_moved_default_fails :
    let env := demo false (fun _ => 0)
    let e0 : Engine Nat Unit Nat (fun _ => Nat) :=
      registerTarget () 3 (registerHardCodedSource (setHardCoded () [(3, 5)] fresh))
    let e1 := (resolveInputs env [()] e0).1
    let e2 := (resolveInputs env [()] e1).1
    getValue () 3 e1 = .ok 5 ∧ (resolveInputs env [()] e1).2 = .ok true ∧ getValue () 3 e2 = .ok 0 := by
  have hs : ({3} : Finset Nat).sort (· ≤ ·) = [3] := Finset.sort_singleton _ _
  simp [resolveInputs, resolveTypes, resolveType, Engine.slot, registerTarget, registerHardCodedSource, setHardCoded,
    fresh, hs, resolveLoop, lookup, demo, Engine.setSlot, getValue]

/-- C52 is false for functions: after replacing a hard-coded function, the next resolve reports
success and still returns the old one -/
theorem C52_function_default_fails :
    let env := demo true id
    let e0 : Engine Nat Unit Nat (fun _ => Nat) :=
      registerTarget () 3 (registerHardCodedSource (setHardCoded () [(3, 5)] fresh))
    let e1 := (resolveInputs env [()] e0).1
    let e2 := (resolveInputs env [()] (setHardCoded () [(3, 6)] e1)).1
    getValue () 3 e1 = .ok 5 ∧ (resolveInputs env [()] (setHardCoded () [(3, 6)] e1)).2 = .ok true ∧
      getValue () 3 e2 = .ok 5 := by
  have hs : ({3} : Finset Nat).sort (· ≤ ·) = [3] := Finset.sort_singleton _ _
  simp [resolveInputs, resolveTypes, resolveType, Engine.slot, registerTarget, registerHardCodedSource, setHardCoded,
    fresh, hs, resolveLoop, lookup, demo, Engine.setSlot, getValue]

/-- a program meeting the hypotheses of C50-C52: two targets, one in Lua and one by default -/
example :
    let env := demo false id
    let e0 : Engine Nat Unit Nat (fun _ => Nat) :=
      registerTarget () 3 (registerLuaSource (demoLua 7) (registerHardCodedSource (setHardCoded () [(3, 5)] fresh)))
    (resolveInputs env [()] e0).2 = .ok true ∧ getValue () 3 (resolveInputs env [()] e0).1 = .ok 7 := by
  have hs : ({3} : Finset Nat).sort (· ≤ ·) = [3] := Finset.sort_singleton _ _
  simp [resolveInputs, resolveTypes, resolveType, Engine.slot, registerTarget, registerHardCodedSource, setHardCoded,
    registerLuaSource, demoLua, LuaSource.get, slice,
    fresh, hs, resolveLoop, lookup, demo, Engine.setSlot, getValue]

end Verif.InputEngine
