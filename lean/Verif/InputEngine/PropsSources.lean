import Verif.InputEngine.Props
import Verif.InputEngine.PropsValue

/-!
# C50, C54: the sources in any history, and a new init_value
-/

namespace Verif.InputEngine

variable {K Ty L : Type} {Val : Ty → Type} [LinearOrder K] [DecidableEq Ty]

theorem resolveTypes_sources (env : Env K Ty L Val) (tys : List Ty) (e : Engine K Ty L Val) :
    (resolveTypes env tys e).1.lua = e.lua ∧ (resolveTypes env tys e).1.hc = e.hc := by
  induction tys generalizing e with
  | nil => exact ⟨rfl, rfl⟩
  | cons τ τs ih =>
    rw [resolveTypes]
    rcases resolveType env e.lua e.hc τ (e.slot τ) with ⟨s, r⟩
    cases r with
    | ok b =>
      have h := ih (e.setSlot τ s)
      simp only
      rcases hq : resolveTypes env τs (e.setSlot τ s) with ⟨e', r'⟩
      rw [hq] at h
      cases r' <;> exact h
    | _ => exact ⟨rfl, rfl⟩

theorem cmd_lua (env : Env K Ty L Val) (tys : List Ty) (c : Cmd K Ty L Val) (e : Engine K Ty L Val) (h : ∀ ls, c ≠ .luaSource ls) :
    (c.run env tys e).lua = e.lua := by
  cases c with
  | register τ k => rfl
  | setHard τ es => rfl
  | luaSource ls => exact absurd rfl (h ls)
  | hardSource => rfl
  | resolve =>
    have := resolveTypes_sources env tys e
    rw [Cmd.run, resolveInputs]
    rcases hq : resolveTypes env tys e with ⟨e', r⟩
    rw [hq] at this
    cases r <;> exact this.1
  | clear => rfl
  | instant τ k =>
    rw [Cmd.run, getInstantValue]
    rcases lookup env e.lua e.hc τ k (e.slot τ) with ⟨s, r⟩
    cases r with
    | ok f => cases f <;> rfl
    | _ => rfl
  | assign τ k v => rw [Cmd.run]; split <;> rfl

theorem cmd_hc (env : Env K Ty L Val) (tys : List Ty) (c : Cmd K Ty L Val) (e : Engine K Ty L Val) (h : e.hc = true) :
    (c.run env tys e).hc = true := by
  cases c with
  | register τ k => exact h
  | setHard τ es => exact h
  | luaSource ls => exact h
  | hardSource => rfl
  | resolve =>
    have := resolveTypes_sources env tys e
    rw [Cmd.run, resolveInputs]
    rcases hq : resolveTypes env tys e with ⟨e', r⟩
    rw [hq] at this
    cases r <;> exact this.2.trans h
  | clear => exact h
  | instant τ k =>
    rw [Cmd.run, getInstantValue]
    rcases lookup env e.lua e.hc τ k (e.slot τ) with ⟨s, r⟩
    cases r with
    | ok f => cases f <;> exact h
    | _ => exact h
  | assign τ k v => rw [Cmd.run]; split <;> exact h

theorem history_lua (env : Env K Ty L Val) (tys : List Ty) : ∀ (h : List (Cmd K Ty L Val)) (e : Engine K Ty L Val),
    (∀ ls, .luaSource ls ∉ h) → (runHistory env tys h e).lua = e.lua
  | [], e, _ => rfl
  | c :: h, e, hn => by
    show (runHistory env tys h (c.run env tys e)).lua = e.lua
    rw [history_lua env tys h _ fun ls hl => hn ls (List.mem_cons_of_mem _ hl)]
    exact cmd_lua env tys c e fun ls hc => hn ls (by rw [hc]; exact List.mem_cons_self)

theorem history_hc (env : Env K Ty L Val) (tys : List Ty) : ∀ (h : List (Cmd K Ty L Val)) (e : Engine K Ty L Val),
    .hardSource ∈ h ∨ e.hc = true → (runHistory env tys h e).hc = true
  | [], e, hn => by simpa [runHistory] using hn
  | c :: h, e, hn => by
    show (runHistory env tys h (c.run env tys e)).hc = true
    refine history_hc env tys h _ ?_
    rcases hn with hn | hn
    · rcases List.mem_cons.1 hn with hn | hn
      · subst hn; exact .inr rfl
      · exact .inl hn
    · exact .inr (cmd_hc env tys c e hn)

theorem history_append (env : Env K Ty L Val) (tys : List Ty) (h h' : List (Cmd K Ty L Val)) (e : Engine K Ty L Val) :
    runHistory env tys (h ++ h') e = runHistory env tys h' (runHistory env tys h e) := by
  rw [runHistory, List.foldl_append]; rfl

/-- **C50** In every history the Lua source registered last is the one that is asked first, whatever is done before and after: registering
the source of defaults, setting defaults, registering targets, resolving, clearing, writing values. -/
theorem C50_sources_lua (env : Env K Ty L Val) (tys : List Ty) (h1 h2 : List (Cmd K Ty L Val)) (ls : LuaSource K L)
    (hn : ∀ l, .luaSource l ∉ h2) (τ : Ty) (k : K) (v : Val τ) (hv : ls.get env τ k = .ok (some v)) :
    let e := runHistory env tys (h1 ++ .luaSource ls :: h2) fresh
    (getInstantValue env τ k e).2 = .ok v ∧
    ∀ e' b, tys.Nodup → resolveInputs env tys e = (e', .ok b) → τ ∈ tys → k ∈ (e.st τ).targets → env.isFun τ = false →
      getValue τ k e' = .ok v := by
  intro e
  have hl : LuaGives env e τ k v := by
    refine ⟨ls, ?_, hv⟩
    show (runHistory env tys (h1 ++ .luaSource ls :: h2) fresh).lua = some ls
    rw [history_append]
    show (runHistory env tys h2 (registerLuaSource ls (runHistory env tys h1 fresh))).lua = some ls
    rw [history_lua env tys h2 _ hn]
    rfl
  exact ⟨((C50_instant env τ k e).1 v hl).1, fun e' b hnd he hτ hk hf => (C50_priority env hnd he hτ hf hk).1 v hl⟩

/-- the Lua source first, then the one of defaults, then a resolution and clearing the registry: the Lua source is asked still -/
example : (getInstantValue (demo3 false) () 3 (runHistory (demo3 false) [()] ([.setHard () [(3, 5)]] ++ .luaSource (demoLua 7) ::
    [.hardSource, .register () 3, .resolve, .clear]) fresh)).2 = .ok 7 :=
  (C50_sources_lua (demo3 false) [()] [.setHard () [(3, 5)]] [.hardSource, .register () 3, .resolve, .clear] (demoLua 7) (by simp) () 3 7
    (twoTargets_lua false 3 (by decide))).1

/-- **C50** In every history with the source of defaults registered, a default set last is what is given where no Lua source has been
registered. -/
theorem C50_sources_hard (env : Env K Ty L Val) (tys : List Ty) (h : List (Cmd K Ty L Val)) (hh : .hardSource ∈ h)
    (hn : ∀ l, .luaSource l ∉ h) (τ : Ty) (k : K) (es es' : List (K × Val τ)) (d : Val τ) (hk : ∀ p ∈ es', p.1 ≠ k) (hf : env.isFun τ = false) :
    (getInstantValue env τ k (runHistory env tys (h ++ [.setHard τ (es ++ (k, d) :: es')]) fresh)).2 = .ok d := by
  rw [history_append]
  have hl := history_lua env tys h (fresh : Engine K Ty L Val) hn
  have hc := history_hc env tys h (fresh : Engine K Ty L Val) (.inl hh)
  generalize runHistory env tys h fresh = e at hl hc
  have key : ∀ (es' : List (K × Val τ)) (m : K → Option (Val τ)), (∀ p ∈ es', p.1 ≠ k) →
      es'.foldl (fun (m : K → Option (Val τ)) p => Function.update m p.1 (some p.2)) m k = m k := by
    intro es'
    induction es' with
    | nil => intros; rfl
    | cons p es' ih =>
      intro m hm
      rw [List.foldl_cons, ih _ fun q hq => hm q (List.mem_cons_of_mem _ hq), Function.update_of_ne (Ne.symm (hm p List.mem_cons_self))]
  have := (C50_instant env τ k (setHardCoded τ (es ++ (k, d) :: es') e)).2.1 (.inl hl) d hc (by
    simp only [setHardCoded, Function.update_self]
    rw [List.foldl_append, List.foldl_cons, key es' _ hk, Function.update_self])
  rw [hf] at this
  exact this

/-- a default set twice -/
example : (getInstantValue (demo3 false) () 4 (runHistory (demo3 false) [()] ([.hardSource, .setHard () [(4, 1)], .register () 4, .resolve] ++
    [.setHard () ([(4, 2)] ++ (4, 6) :: [(5, 1)])]) fresh)).2 = .ok 6 :=
  C50_sources_hard (demo3 false) [()] [.hardSource, .setHard () [(4, 1)], .register () 4, .resolve] (by simp) (by simp) () 4 [(4, 2)] [(5, 1)] 6
    (by simp) rfl

/-- **C54** A new init_value is a target of its name: after the next `resolve_inputs()` that returns, `get()` gives the value of the Lua
source, or the default where that has none, if the validator accepts it, and throws otherwise. -/
theorem C54_constructed (env : Env K Ty L Val) {tys : List Ty} (hnd : tys.Nodup) {τ : Ty} (hτ : τ ∈ tys) (hf : env.isFun τ = false)
    (key : K) (validator : Val τ → Bool) (e e' : Engine K Ty L Val) (b : Bool)
    (h : resolveInputs env tys (InitValue.mk' τ key validator e).2 = (e', .ok b)) (v : Val τ)
    (hv : LuaGives env e τ key v ∨ (LuaSilent env e τ key ∧ e.hc = true ∧ e.hcData τ key = some v)) :
    ((InitValue.mk' τ key validator e).1.get e').2 = if validator v then .ok v else .throws "runtime_error" := by
  have ht : key ∈ (((InitValue.mk' τ key validator e).2).st τ).targets := by
    simp [InitValue.mk', registerTarget]
  have hp := C50_priority env hnd h hτ hf ht
  have hg : getValue τ key e' = .ok v := by
    rcases hv with hv | ⟨hs, hc, hd⟩
    · exact hp.1 v hv
    · exact hp.2.1 hs v hc hd
  have hr : resolved τ key e' = true := by
    obtain ⟨_, _, _, _, _, _, hτs⟩ := resolveInputs_ok env hnd h
    have hcalled := (hτs τ hτ).2.1
    rw [resolved, hcalled]
    rw [getValue] at hg
    cases hreg : (e'.st τ).reg key with
    | none => rw [hreg] at hg; simp at hg
    | some w => rfl
  simp only [InitValue.get, InitValue.mk', if_true, hr, hg]
  by_cases hw : validator v = true <;> simp [hw]

/-- the value 7 of the Lua source, accepted and refused -/
example (bound : Nat) : ∃ e', resolveInputs (demo3 false) [()] (InitValue.mk' () 3 (fun v => decide (v < bound)) (registerTarget () 4
      (registerLuaSource (demoLua 7) (registerHardCodedSource (setHardCoded () [(3, 5), (4, 6)] fresh))))).2 = (e', .ok true) ∧
    (InitValue.get (τ := ()) (InitValue.mk' () (Val := fun _ => Nat) 3 (fun v => decide (v < bound)) (registerTarget () 4
      (registerLuaSource (demoLua 7) (registerHardCodedSource (setHardCoded () [(3, 5), (4, 6)] fresh))))).1 e').2 =
        if decide (7 < bound) then .ok 7 else .throws "runtime_error" := by
  have hs : registerTarget () 3 (registerTarget () 4 (registerLuaSource (demoLua 7) (registerHardCodedSource
      (setHardCoded () [(3, 5), (4, 6)] fresh)))) = twoTargets :=
    C50_registration_order [((), 4), ((), 3)] [((), 3), ((), 4)] (by simp [or_comm]) _
  obtain ⟨e', h⟩ := twoTargets_resolve false
  refine ⟨e', by rw [← hs] at h; exact h, ?_⟩
  exact C54_constructed (demo3 false) (tys := [()]) (by simp) (by simp) rfl 3 _ _ e' true (by rw [← hs] at h; exact h) 7
    (.inl ⟨_, rfl, twoTargets_lua false 3 (by decide)⟩)

end Verif.InputEngine
