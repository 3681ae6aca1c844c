import Verif.InputEngine.Model

/-!
# What resolving one type does, target by target
-/

namespace Verif.InputEngine

variable {K Ty L : Type} {Val : Ty → Type} [LinearOrder K] [DecidableEq Ty]

/-- where the value of a target comes from -/
inductive Origin (T : Type)
  /-- the Lua file has it -/
  | lua (v : T)
  /-- it is the hard-coded default -/
  | hard (v : T)
  /-- nobody has it -/
  | nowhere

/-- the documented priority (input_engine.h:62-63, 170-172): the Lua file, then the hard-coded
source; `none` when asking the Lua source throws -/
def origin (env : Env K Ty L Val) (lua : Option (LuaSource K L)) (hc : Bool) (τ : Ty) (hcData : K → Option (Val τ))
    (k : K) : Option (Origin (Val τ)) :=
  let default : Origin (Val τ) := match hc, hcData k with
    | true, some v => .hard v
    | _, _ => .nowhere
  match lua with
  | none => some default
  | some ls => match ls.get env τ k with
    | .ok (some v) => some (.lua v)
    | .ok none => some default
    | _ => none

/-- the registry entry afterwards, given the one before -/
def Origin.entry {T : Type} (isFun : Bool) (old : Option T) : Origin T → Option T
  | .lua v => some v
  | .hard v => if isFun && old.isSome then old else some v
  | .nowhere => old

/-- the hard-coded entry afterwards -/
def Origin.left {T : Type} (moved : T → T) (old : Option T) : Origin T → Option T
  | .hard v => some (moved v)
  | _ => old

/-- no source has a value -/
def Origin.isNowhere {T : Type} : Origin T → Bool
  | .nowhere => true
  | _ => false

theorem lookup_eq (env : Env K Ty L Val) (lua : Option (LuaSource K L)) (hc : Bool) (τ : Ty) (k : K)
    (s : Slot K (Val τ)) :
    match origin env lua hc τ s.hcData k with
    | some o => lookup env lua hc τ k s =
        (⟨{ s.st with reg := Function.update s.st.reg k (o.entry (env.isFun τ) (s.st.reg k)) },
          Function.update s.hcData k (o.left (env.moved τ) (s.hcData k))⟩, .ok (if o.isNowhere then .no else .yes))
    | none => (lookup env lua hc τ k s).1 = s ∧ ∀ f, (lookup env lua hc τ k s).2 ≠ .ok f := by
  have hupd : ∀ (f : K → Option (Val τ)) x, f k = x → Function.update f k x = f := by
    rintro f x rfl
    exact Function.update_eq_self k f
  have hif : ∀ (c : Bool) (f : K → Option (Val τ)) x,
      (if c = true then f else Function.update f k x) = Function.update f k (if c = true then f k else x) := by
    intro c f x
    cases c
    · rfl
    · exact (hupd f _ rfl).symm
  cases lua with
  | none =>
    cases hc with
    | false =>
      simp only [origin, lookup, Origin.entry, Origin.left, Origin.isNowhere, hupd _ _ rfl]
      rfl
    | true =>
      cases hd : s.hcData k with
      | none =>
        simp only [origin, lookup, hd, Origin.entry, Origin.left, Origin.isNowhere, hupd _ _ rfl, hupd _ _ hd]
        rfl
      | some v =>
        simp only [origin, lookup, hd, Origin.entry, Origin.left, Origin.isNowhere, hif]
        rfl
  | some ls =>
    cases hg : ls.get env τ k with
    | ok r =>
      cases r with
      | some v =>
        simp only [origin, lookup, hg, Origin.entry, Origin.left, Origin.isNowhere, hupd _ _ rfl]
        rfl
      | none =>
        cases hc with
        | false =>
          simp only [origin, lookup, hg, Origin.entry, Origin.left, Origin.isNowhere, hupd _ _ rfl]
          rfl
        | true =>
          cases hd : s.hcData k with
          | none =>
            simp only [origin, lookup, hg, hd, Origin.entry, Origin.left, Origin.isNowhere, hupd _ _ rfl, hupd _ _ hd]
            rfl
          | some v =>
            simp only [origin, lookup, hg, hd, Origin.entry, Origin.left, Origin.isNowhere, hif]
            rfl
    | _ => simp [origin, lookup, hg]

/-- only the entry of the key itself matters -/
theorem origin_congr (env : Env K Ty L Val) (lua : Option (LuaSource K L)) (hc : Bool) (τ : Ty)
    (d d' : K → Option (Val τ)) (k : K) (h : d k = d' k) : origin env lua hc τ d k = origin env lua hc τ d' k := by
  simp only [origin, h]

/-- the loop over distinct targets, when no lookup throws: every target is treated on its own -/
theorem resolveLoop_eq (env : Env K Ty L Val) (lua : Option (LuaSource K L)) (hc : Bool) (τ : Ty) (org : K → Origin (Val τ))
    (ks : List K) (hnd : ks.Nodup) (missed : Bool) (s : Slot K (Val τ))
    (ho : ∀ k ∈ ks, origin env lua hc τ s.hcData k = some (org k)) :
    resolveLoop env lua hc τ ks missed s =
      (⟨{ s.st with
          reg := fun k => if k ∈ ks then (org k).entry (env.isFun τ) (s.st.reg k) else s.st.reg k
          failed := s.st.failed ∪ (ks.filter fun k => (org k).isNowhere).toFinset },
        fun k => if k ∈ ks then (org k).left (env.moved τ) (s.hcData k) else s.hcData k⟩,
        .ok (missed || ks.any fun k => (org k).isNowhere)) := by
  induction ks generalizing missed s with
  | nil => simp [resolveLoop]
  | cons k ks ih =>
    have hk := lookup_eq env lua hc τ k s
    rw [ho k (by simp)] at hk
    simp only at hk
    have hnk : k ∉ ks := (List.nodup_cons.mp hnd).1
    have hstep : ∀ (failed : Finset K), ∀ k' ∈ ks, origin env lua hc τ
        (⟨{ s.st with reg := Function.update s.st.reg k ((org k).entry (env.isFun τ) (s.st.reg k)), failed := failed },
          Function.update s.hcData k ((org k).left (env.moved τ) (s.hcData k))⟩ : Slot K (Val τ)).hcData k' = some (org k') := by
      intro failed k' hk'
      rw [← ho k' (by simp [hk'])]
      exact origin_congr _ _ _ _ _ _ _ (Function.update_of_ne (by rintro rfl; exact hnk hk') _ _)
    cases hn : (org k).isNowhere with
    | true =>
      rw [resolveLoop, hk, hn]
      simp only [if_true]
      rw [ih (List.nodup_cons.mp hnd).2 true _ (hstep _)]
      simp only [Prod.mk.injEq, Slot.mk.injEq, TypeState.mk.injEq, true_and, and_true]
      refine ⟨⟨⟨?_, ?_⟩, ?_⟩, ?_⟩
      · funext k'
        by_cases e : k' = k
        · subst e; simp [hnk]
        · simp [e]
      · ext k'
        simp only [Finset.mem_union, Finset.mem_insert, List.mem_toFinset, List.mem_filter, List.mem_cons]
        constructor
        · rintro ((rfl | h) | ⟨h1, h2⟩)
          · exact .inr ⟨.inl rfl, hn⟩
          · exact .inl h
          · exact .inr ⟨.inr h1, h2⟩
        · rintro (h | ⟨rfl | h1, h2⟩)
          · exact .inl (.inr h)
          · exact .inl (.inl rfl)
          · exact .inr ⟨h1, h2⟩
      · funext k'
        by_cases e : k' = k
        · subst e; simp [hnk]
        · simp [e]
      · simp [hn]
    | false =>
      rw [resolveLoop, hk, hn]
      simp only [Bool.false_eq_true, if_false]
      rw [ih (List.nodup_cons.mp hnd).2 missed _ (hstep _)]
      simp only [Prod.mk.injEq, Slot.mk.injEq, TypeState.mk.injEq, true_and, and_true]
      refine ⟨⟨⟨?_, ?_⟩, ?_⟩, ?_⟩
      · funext k'
        by_cases e : k' = k
        · subst e; simp [hnk]
        · simp [e]
      · ext k'
        simp only [Finset.mem_union, List.mem_toFinset, List.mem_filter, List.mem_cons]
        constructor
        · rintro (h | ⟨h1, h2⟩)
          · exact .inl h
          · exact .inr ⟨.inr h1, h2⟩
        · rintro (h | ⟨rfl | h1, h2⟩)
          · exact .inl h
          · rw [hn] at h2; simp at h2
          · exact .inr ⟨h1, h2⟩
      · funext k'
        by_cases e : k' = k
        · subst e; simp [hnk]
        · simp [e]
      · simp [hn]

/-- the loop does not return if some lookup throws -/
theorem resolveLoop_throws (env : Env K Ty L Val) (lua : Option (LuaSource K L)) (hc : Bool) (τ : Ty)
    (ks : List K) (hnd : ks.Nodup) (missed : Bool) (s : Slot K (Val τ)) (k0 : K) (hk0 : k0 ∈ ks)
    (ho : origin env lua hc τ s.hcData k0 = none) (b : Bool) : (resolveLoop env lua hc τ ks missed s).2 ≠ .ok b := by
  induction ks generalizing missed s with
  | nil => simp at hk0
  | cons k ks ih =>
    have hk := lookup_eq env lua hc τ k s
    have hnk : k ∉ ks := (List.nodup_cons.mp hnd).1
    cases hok : origin env lua hc τ s.hcData k with
    | none =>
      rw [hok] at hk
      simp only at hk
      have h2 := hk.2
      rw [resolveLoop]
      rcases hl : lookup env lua hc τ k s with ⟨s', r⟩
      rw [hl] at h2
      cases r with
      | ok f => exact absurd rfl (h2 f)
      | _ => simp
    | some o =>
      have hne : k0 ≠ k := by rintro rfl; rw [hok] at ho; simp at ho
      have hmem : k0 ∈ ks := by
        rcases List.mem_cons.mp hk0 with h | h
        · exact absurd h hne
        · exact h
      rw [hok] at hk
      simp only at hk
      rw [resolveLoop, hk]
      cases hn : o.isNowhere with
      | true =>
        simp only [if_true]
        apply ih (List.nodup_cons.mp hnd).2 _ _ hmem
        rw [← ho]
        exact origin_congr _ _ _ _ _ _ _ (Function.update_of_ne hne _ _)
      | false =>
        simp only [Bool.false_eq_true, if_false]
        apply ih (List.nodup_cons.mp hnd).2 _ _ hmem
        rw [← ho]
        exact origin_congr _ _ _ _ _ _ _ (Function.update_of_ne hne _ _)

/-- resolving one type: it returns exactly when no lookup throws, and then every target has been
treated on its own -/
theorem resolveType_eq (env : Env K Ty L Val) (lua : Option (LuaSource K L)) (hc : Bool) (τ : Ty) (org : K → Origin (Val τ))
    (s : Slot K (Val τ)) (ho : ∀ k ∈ s.st.targets, origin env lua hc τ s.hcData k = some (org k)) :
    ∃ b, (b = true ↔ ∀ k ∈ s.st.targets, (org k).isNowhere = false) ∧
    resolveType env lua hc τ s =
      (⟨{ s.st with
          reg := fun k => if k ∈ s.st.targets then (org k).entry (env.isFun τ) (s.st.reg k) else s.st.reg k
          failed := s.st.failed ∪ s.st.targets.filter fun k => (org k).isNowhere = true
          allResolved := s.st.allResolved || b
          resolveCalled := true },
        fun k => if k ∈ s.st.targets then (org k).left (env.moved τ) (s.hcData k) else s.hcData k⟩, .ok b) := by
  have hl := resolveLoop_eq env lua hc τ org (s.st.targets.sort (· ≤ ·)) (Finset.sort_nodup _ _) false s
    (fun k hk => ho k ((Finset.mem_sort _).mp hk))
  refine ⟨!((s.st.targets.sort (· ≤ ·)).any fun k => (org k).isNowhere), ?_, ?_⟩
  · simp
  · rw [resolveType, hl]
    simp only [Bool.false_or, Finset.mem_sort]
    congr 3
    ext k
    simp

theorem resolveType_throws (env : Env K Ty L Val) (lua : Option (LuaSource K L)) (hc : Bool) (τ : Ty)
    (s : Slot K (Val τ)) (k : K) (hk : k ∈ s.st.targets) (ho : origin env lua hc τ s.hcData k = none) (b : Bool) :
    (resolveType env lua hc τ s).2 ≠ .ok b := by
  have hl := resolveLoop_throws env lua hc τ (s.st.targets.sort (· ≤ ·)) (Finset.sort_nodup _ _) false s k
    ((Finset.mem_sort _).mpr hk) ho
  rw [resolveType]
  rcases h : resolveLoop env lua hc τ (s.st.targets.sort (· ≤ ·)) false s with ⟨s', r⟩
  rw [h] at hl
  cases r with
  | ok f => exact absurd rfl (hl f)
  | _ => simp

end Verif.InputEngine
