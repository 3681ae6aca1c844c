import Verif.InputEngine.PropsValue

/-!
# C54 over a registry that changes: which value the verdict of `valid()` is about
-/

namespace Verif.InputEngine

section
variable {K Ty L : Type} {Val : Ty → Type}

/-- the engine holds the value `v` for the key -/
def Holds {τ : Ty} (key : K) (e : Engine K Ty L Val) (v : Val τ) : Prop := (e.st τ).reg key = some v

/-- Some `get()` or `valid()` of the history read the value `v` whose verdict is `b`, and since then no
`get()` found a value and no `resolved()` said yes. -/
def LastRead {τ : Ty} (key : K) (validator : Val τ → Bool) (history : List (Call × Engine K Ty L Val)) (b : Bool) : Prop :=
  ∃ pre c e post, history = pre ++ (c, e) :: post ∧ c ≠ .resolved ∧ (∃ v, Holds key e v ∧ validator v = b) ∧
    ∀ p ∈ post, (p.1 = .get → ∀ v : Val τ, ¬ Holds key p.2 v) ∧ (p.1 = .resolved → resolved τ key p.2 = false)

theorem LastRead.snoc {τ : Ty} {key : K} {validator : Val τ → Bool} {history : List (Call × Engine K Ty L Val)} {b : Bool}
    (h : LastRead key validator history b) (c : Call) (e : Engine K Ty L Val)
    (h1 : c = .get → ∀ v : Val τ, ¬ Holds key e v) (h2 : c = .resolved → resolved τ key e = false) :
    LastRead key validator (history ++ [(c, e)]) b := by
  obtain ⟨pre, c', e', post, rfl, hc, hv, hp⟩ := h
  refine ⟨pre, c', e', post ++ [(c, e)], by simp, hc, hv, ?_⟩
  intro p hp'
  rw [List.mem_append, List.mem_singleton] at hp'
  rcases hp' with hp' | rfl
  · exact hp p hp'
  · exact ⟨h1, h2⟩

theorem LastRead.now {τ : Ty} {key : K} {validator : Val τ → Bool} (history : List (Call × Engine K Ty L Val)) (c : Call)
    (e : Engine K Ty L Val) (hc : c ≠ .resolved) (v : Val τ) (hv : Holds key e v) :
    LastRead key validator (history ++ [(c, e)]) (validator v) :=
  ⟨history, c, e, [], rfl, hc, ⟨v, hv, rfl⟩, by simp⟩

/-- what the status says about the history -/
def Remembers {τ : Ty} (iv : InitValue K (Val τ)) (history : List (Call × Engine K Ty L Val)) : Prop :=
  (iv.status = .valid → LastRead iv.key iv.validator history true) ∧
  (iv.status = .invalid → LastRead iv.key iv.validator history false)

theorem remembers_step {τ : Ty} (c : Call) (iv : InitValue K (Val τ)) (e : Engine K Ty L Val)
    (history : List (Call × Engine K Ty L Val)) (h : Remembers iv history) :
    Remembers (c.run iv e) (history ++ [(c, e)]) ∧ (c.run iv e).key = iv.key ∧ (c.run iv e).validator = iv.validator := by
  have now : ∀ (c : Call), c ≠ .resolved → ∀ v : Val τ, (e.st τ).reg iv.key = some v →
      LastRead iv.key iv.validator (history ++ [(c, e)]) (iv.validator v) :=
    fun c hc v hv => LastRead.now history c e hc v hv
  cases c with
  | get =>
    simp only [Call.run, InitValue.get, getValue]
    cases hr : (e.st τ).reg iv.key with
    | none =>
      have hnone : ∀ v : Val τ, ¬ Holds iv.key e v := fun v hv => by rw [Holds, hr] at hv; cases hv
      by_cases hs : iv.status = .registered
      · simp [hs, Verif.InputEngine.resolved, hr, Remembers]
      · simp only [hs, if_false]
        exact ⟨⟨fun h1 => (h.1 h1).snoc _ _ (fun _ => hnone) (by simp), fun h1 => (h.2 h1).snoc _ _ (fun _ => hnone) (by simp)⟩,
          by simp, by simp⟩
    | some w =>
      have hw := now .get (by simp) w hr
      by_cases hs : iv.status = .registered
      · cases hc : (e.st τ).resolveCalled
        · simp [hs, Verif.InputEngine.resolved, hr, hc, Remembers]
        · cases hv : iv.validator w
          · rw [hv] at hw
            simp [hs, Verif.InputEngine.resolved, hr, hc, Remembers, hv, hw]
          · rw [hv] at hw
            simp [hs, Verif.InputEngine.resolved, hr, hc, Remembers, hv, hw]
      · cases hv : iv.validator w
        · rw [hv] at hw
          simp [hs, Remembers, hv, hw]
        · rw [hv] at hw
          simp [hs, Remembers, hv, hw]
  | resolved =>
    simp only [Call.run, InitValue.resolved]
    split
    · simp [Remembers]
    · next hn =>
      have hn' : resolved τ iv.key e = false := by simpa using hn
      exact ⟨⟨fun h1 => (h.1 h1).snoc _ _ (by simp) (fun _ => hn'), fun h1 => (h.2 h1).snoc _ _ (by simp) (fun _ => hn')⟩,
        rfl, rfl⟩
  | valid =>
    simp only [Call.run, InitValue.valid, InitValue.resolved, getValue]
    by_cases h1 : iv.status = .valid
    · simp only [h1, if_true]
      exact ⟨⟨fun _ => (h.1 h1).snoc _ _ (by simp) (by simp), fun h2 => by simp [h1] at h2⟩, by simp, by simp⟩
    · by_cases h2 : iv.status = .invalid
      · simp only [h2, if_true]
        exact ⟨⟨fun h1 => (by simp [h2] at h1), fun _ => (h.2 h2).snoc _ _ (by simp) (by simp)⟩, by simp, by simp⟩
      · cases hr : (e.st τ).reg iv.key with
        | none => simp [h1, h2, Verif.InputEngine.resolved, hr, Remembers]
        | some w =>
          have hw := now .valid (by simp) w hr
          cases hc : (e.st τ).resolveCalled
          · simp [h1, h2, Verif.InputEngine.resolved, hr, hc, Remembers]
          · cases hv : iv.validator w
            · rw [hv] at hw
              simp [h1, h2, Verif.InputEngine.resolved, hr, hc, Remembers, hv, hw]
            · rw [hv] at hw
              simp [h1, h2, Verif.InputEngine.resolved, hr, hc, Remembers, hv, hw]

/-- C54 over any sequence of calls on the init_value, the engine being changed at will between them:
`valid()` never throws, and its answer is one of these.  The present value's verdict; or `false` because
nothing is resolved now; or the verdict on the value that an earlier `get()` or `valid()` read, no `get()`
having found a value and no `resolved()` having said yes since (`C54_stale_verdict_fails` is this case). -/
theorem C54_verdict {τ : Ty} (key : K) (validator : Val τ → Bool) (history : List (Call × Engine K Ty L Val))
    (e : Engine K Ty L Val) :
    let iv := history.foldl (fun iv p => p.1.run iv p.2) (⟨key, validator, .registered⟩ : InitValue K (Val τ))
    ∃ b, (iv.valid e).2 = .ok b ∧
      ((∃ v, (e.st τ).reg key = some v ∧ validator v = b) ∨ (b = false ∧ resolved τ key e = false) ∨
        LastRead key validator history b) := by
  intro iv
  have hinv : Remembers iv history ∧ iv.key = key ∧ iv.validator = validator := by
    have : ∀ (rest past : List (Call × Engine K Ty L Val)) (iv0 : InitValue K (Val τ)), Remembers iv0 past →
        Remembers (rest.foldl (fun iv p => p.1.run iv p.2) iv0) (past ++ rest) ∧
        (rest.foldl (fun iv p => p.1.run iv p.2) iv0).key = iv0.key ∧
        (rest.foldl (fun iv p => p.1.run iv p.2) iv0).validator = iv0.validator := by
      intro rest
      induction rest with
      | nil => intro past iv0 h; exact ⟨by simpa using h, rfl, rfl⟩
      | cons p ps ih =>
        intro past iv0 h
        obtain ⟨h1, h2, h3⟩ := remembers_step p.1 iv0 p.2 past h
        obtain ⟨g1, g2, g3⟩ := ih (past ++ [p]) (p.1.run iv0 p.2) h1
        exact ⟨by simpa using g1, g2.trans h2, g3.trans h3⟩
    simpa using this history [] ⟨key, validator, .registered⟩ ⟨by simp, by simp⟩
  obtain ⟨hc, hk, hval⟩ := hinv
  clear_value iv
  subst hk hval
  rw [InitValue.valid]
  by_cases h1 : iv.status = .valid
  · exact ⟨true, by simp [h1], .inr (.inr (hc.1 h1))⟩
  · by_cases h2 : iv.status = .invalid
    · exact ⟨false, by simp [h2], .inr (.inr (hc.2 h2))⟩
    · simp only [h1, h2, if_false, InitValue.resolved]
      cases hr : Verif.InputEngine.resolved τ iv.key e with
      | false => exact ⟨false, by simp, .inr (.inl ⟨rfl, rfl⟩)⟩
      | true =>
        have hs : ((e.st τ).reg iv.key).isSome := by
          rw [Verif.InputEngine.resolved, Bool.and_eq_true_iff] at hr; exact hr.2
        obtain ⟨v, hv⟩ := Option.isSome_iff_exists.mp hs
        simp only [if_true, getValue, hv]
        exact ⟨iv.validator v, rfl, .inl ⟨v, rfl, rfl⟩⟩

/-- C54: right after a `get()` that found a value, whatever happened before, `valid()` tells whether that
`get()` succeeded. -/
theorem C54_get_then_valid {τ : Ty} (iv : InitValue K (Val τ)) (e e' : Engine K Ty L Val)
    (hr : iv.status = .registered → resolved τ iv.key e = true) (v : Val τ) (hv : (e.st τ).reg iv.key = some v) :
    ((iv.get e).1.valid e').2 = .ok (iv.validator v) ∧
    (iv.get e).2 = if iv.validator v then .ok v else .throws "runtime_error" := by
  rw [InitValue.get]
  by_cases hs : iv.status = .registered
  · simp only [hs, if_true, hr hs, getValue, hv]
    cases hb : iv.validator v <;> simp [InitValue.valid]
  · simp only [hs, if_false, getValue, hv]
    cases hb : iv.validator v <;> simp [InitValue.valid]

end

/-- the engine of the example: every key holds `v` -/
private def exHolding (v : Nat) : Engine Nat Unit Nat (fun _ => Nat) :=
  { st := fun _ => { reg := fun _ => some v, targets := {3}, failed := ∅, resolveCalled := true, allResolved := true }
    hcData := fun _ _ => none, lua := none, hc := false }

/- a stale verdict: `valid()` read 1, the registry then changed to 0, and `valid()` is still about the 1 -/
example : LastRead (τ := ()) 3 (fun n : Nat => n == 1) [(Call.valid, exHolding 1), (Call.valid, exHolding 0)] true ∧
    ¬ LastRead (τ := ()) 3 (fun n : Nat => n == 1) [(Call.valid, exHolding 1), (Call.get, exHolding 0)] true := by
  refine ⟨⟨[], .valid, exHolding 1, [(.valid, exHolding 0)], rfl, by decide, ⟨1, rfl, rfl⟩, by simp⟩, ?_⟩
  rintro ⟨pre, c, e, post, h, hc, ⟨v, hv, hb⟩, hp⟩
  rcases pre with _ | ⟨p, _ | ⟨q, pre⟩⟩
  · simp only [List.nil_append, List.cons.injEq] at h
    obtain ⟨-, rfl⟩ := h
    exact (hp (.get, exHolding 0) (by simp)).1 rfl 0 rfl
  · simp only [List.cons_append, List.nil_append, List.cons.injEq, Prod.mk.injEq] at h
    obtain ⟨-, ⟨-, rfl⟩, -⟩ := h
    have hv' : some 0 = some v := hv
    cases hv'
    simp at hb
  · simp at h

/- `get()` rejected the 0: `valid()` says so, whatever the engine holds later -/
example : ((InitValue.get (τ := ()) (Val := fun _ => Nat) ⟨3, fun n : Nat => n == 1, .registered⟩ (exHolding 0)).1.valid
    (τ := ()) (Val := fun _ => Nat) (exHolding 1)).2 = .ok false :=
  (C54_get_then_valid (τ := ()) ⟨3, fun n : Nat => n == 1, .registered⟩ (exHolding 0) (exHolding 1) (fun _ => rfl) 0 rfl).1

end Verif.InputEngine
