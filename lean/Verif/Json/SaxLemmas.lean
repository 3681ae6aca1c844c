import Verif.Json.SaxModel
import Verif.Json.ParseLemmas

/-!
# Lemmas about the parser with a consumer of events
-/

namespace Verif.Json
open Spec

/-! ## What the parser tells does not depend on the consumer -/

/-- the calls of a round, and how it ends if the consumer goes along -/
def Act.calls : Act F → List (Event F)
  | .call e k => e :: k.calls
  | .error _ => []
  | .next _ => []
  | .done _ => []

/-- how a round ends -/
inductive Final (F : Type) where
  | next (m : Spin F)
  | done (lex : Lex)
  | error (e : ParseError)

def Act.final : Act F → Final F
  | .call _ k => k.final
  | .error e => .error e
  | .next m => .next m
  | .done l => .done l

/-- how the loop ends, with a consumer that goes along -/
inductive Told (F : Type) where
  | running
  | done (evs : List (Event F)) (lex : Lex)
  | error (evs : List (Event F)) (e : ParseError)

def Told.before (evs : List (Event F)) : Told F → Told F
  | .running => .running
  | .done es l => .done (evs ++ es) l
  | .error es e => .error (evs ++ es) e

def told (fl : Floats F) : Nat → Spin F → Told F
  | 0, _ => .running
  | n + 1, m =>
    match (act fl m).final with
    | .next m' => (told fl n m').before (act fl m).calls
    | .done l => .done (act fl m).calls l
    | .error e => .error (act fl m).calls e

/-- a list of calls to a consumer, until it has enough: whether it goes along to the end -/
def deliver (H : Sax F σ) : List (Event F) → σ → Outcome (Bool × σ)
  | [], st => .ok (true, st)
  | e :: es, st => do
    let r ← H.on e st
    if r.1 then deliver H es r.2 else pure (false, r.2)

theorem Outcome.bind_assoc' (x : Outcome α) (f : α → Outcome β) (g : β → Outcome γ) :
    ((x >>= f) >>= g) = (x >>= fun a => f a >>= g) := by
  cases x <;> rfl

theorem deliver_append (H : Sax F σ) : ∀ (es es' : List (Event F)) (st : σ),
    deliver H (es ++ es') st =
      (deliver H es st >>= fun r => if r.1 then deliver H es' r.2 else pure (false, r.2))
  | [], es', st => by rw [List.nil_append, deliver]; rfl
  | e :: es, es', st => by
    rw [List.cons_append, deliver, deliver, Outcome.bind_assoc']
    congr 1
    funext r
    by_cases h : r.1
    · rw [if_pos h, if_pos h, deliver_append H es es']
    · rw [if_neg h, if_neg h]
      simp

theorem play_eq (H : Sax F σ) : ∀ (a : Act F) (st : σ),
    H.play a st = (deliver H a.calls st >>= fun r =>
      if r.1 then
        match a.final with
        | .next m => pure (.next m, r.2)
        | .done l => pure (.yes l, r.2)
        | .error e => H.error e r.2 >>= fun st => pure (.no, st)
      else pure (.no, r.2))
  | .call e k, st => by
    rw [Sax.play, Act.calls, Act.final, deliver, Outcome.bind_assoc']
    congr 1
    funext r
    by_cases h : r.1
    · rw [if_pos h, if_pos h, play_eq H k]
    · rw [if_neg h, if_neg h]
      simp
  | .error e, st => by rw [Sax.play, Act.calls, Act.final, deliver]; rfl
  | .next m, st => by rw [Sax.play, Act.calls, Act.final, deliver]; rfl
  | .done l, st => by rw [Sax.play, Act.calls, Act.final, deliver]; rfl

theorem loop_eq (fl : Floats F) (H : Sax F σ) : ∀ (n : Nat) (m : Spin F) (st : σ),
    (∀ es l, told fl n m = .done es l → H.loop fl n m st =
      (deliver H es st >>= fun r => if r.1 then pure (some l, r.2) else pure (none, r.2))) ∧
    (∀ es e, told fl n m = .error es e → H.loop fl n m st =
      (deliver H es st >>= fun r => if r.1 then H.error e r.2 >>= fun st => pure (none, st)
        else pure (none, r.2)))
  | 0, m, st => ⟨fun es l h => (by cases h), fun es e h => (by cases h)⟩
  | n + 1, m, st => by
    rw [told, Sax.loop, play_eq]
    cases hf : (act fl m).final with
    | next m' =>
      simp only
      cases ht : told fl n m' with
      | running => exact ⟨fun es l h => (by cases h), fun es l h => (by cases h)⟩
      | done es' l' =>
        refine ⟨fun es l h => ?_, fun es e h => (by cases h)⟩
        simp only [Told.before, Told.done.injEq] at h
        obtain ⟨rfl, rfl⟩ := h
        rw [deliver_append, Outcome.bind_assoc', Outcome.bind_assoc']
        congr 1
        funext r
        by_cases h : r.1
        · simp only [if_pos h, Outcome.pure_eq, Outcome.bind_ok]
          exact (loop_eq fl H n m' r.2).1 _ _ ht
        · simp only [if_neg h, Outcome.pure_eq, Outcome.bind_ok]
          rfl
      | error es' e' =>
        refine ⟨fun es e h => (by cases h), fun es e h => ?_⟩
        simp only [Told.before, Told.error.injEq] at h
        obtain ⟨rfl, rfl⟩ := h
        rw [deliver_append, Outcome.bind_assoc', Outcome.bind_assoc']
        congr 1
        funext r
        by_cases h : r.1
        · simp only [if_pos h, Outcome.pure_eq, Outcome.bind_ok]
          exact (loop_eq fl H n m' r.2).2 _ _ ht
        · simp only [if_neg h, Outcome.pure_eq, Outcome.bind_ok]
          rfl
    | done l' =>
      refine ⟨fun es l h => ?_, fun es e h => (by cases h)⟩
      simp only [Told.done.injEq] at h
      obtain ⟨rfl, rfl⟩ := h
      rw [Outcome.bind_assoc']
      congr 1
      funext r
      by_cases h : r.1
      · simp only [if_pos h, Outcome.pure_eq, Outcome.bind_ok]
      · simp only [if_neg h, Outcome.pure_eq, Outcome.bind_ok]
    | error e' =>
      refine ⟨fun es l h => (by cases h), fun es e h => ?_⟩
      simp only [Told.error.injEq] at h
      obtain ⟨rfl, rfl⟩ := h
      rw [Outcome.bind_assoc']
      congr 1
      funext r
      by_cases h : r.1
      · simp only [if_pos h]
        rw [Outcome.bind_assoc']
        rfl
      · simp only [if_neg h, Outcome.pure_eq, Outcome.bind_ok]

/-! ## The loop is the one of `Json.Model` -/

def Spin.with (m : Spin F) (evs : List (Event F)) : Machine F := ⟨m.tok, m.lex, m.states, m.skip, evs⟩

def Act.toStep : Act F → List (Event F) → Step F
  | .call e k, evs => k.toStep (evs ++ [e])
  | .error e, _ => .fail e
  | .next m, evs => .next (m.with evs)
  | .done l, evs => .done l evs

theorem toStep_eq : ∀ (a : Act F) (evs : List (Event F)),
    a.toStep evs = match a.final with
      | .next m => .next (m.with (evs ++ a.calls))
      | .done l => .done l (evs ++ a.calls)
      | .error e => .fail e
  | .call e k, evs => by rw [Act.toStep, toStep_eq k, Act.final, Act.calls]; simp
  | .error e, evs => rfl
  | .next m, evs => by simp [Act.toStep, Act.final, Act.calls]
  | .done l, evs => by simp [Act.toStep, Act.final, Act.calls]

theorem actStates_eq (fl : Floats F) (m : Spin F) (evs : List (Event F)) :
    evalStates fl (m.with evs) = (actStates fl m).toStep evs := by
  obtain ⟨tok, l, st, sk⟩ := m
  simp only [Spin.with, evalStates, actStates, getToken, Spin.get, Machine.emit]
  match st with
  | [] => rfl
  | true :: st =>
    simp only
    cases (scanToken fl l.pend).1 <;> rfl
  | false :: st =>
    simp only
    cases (scanToken fl l.pend).1 <;> try rfl
    simp only
    cases (scanToken fl (scanToken fl l.pend).2.pend).1 <;> try rfl
    simp only
    cases (scanToken fl (scanToken fl (scanToken fl l.pend).2.pend).2.pend).1 <;> rfl

theorem act_eq (fl : Floats F) (m : Spin F) (evs : List (Event F)) :
    step fl (m.with evs) = (act fl m).toStep evs := by
  obtain ⟨tok, l, st, sk⟩ := m
  cases sk
  · simp only [Spin.with, step, act, Bool.false_eq_true, if_false]
    have h : ∀ t (l : Lex) e, evalStates fl (Machine.emit ⟨t, l, st, false, evs⟩ e) =
        (actStates fl ⟨t, l, st, false⟩).toStep (evs ++ [e]) := fun t l e => actStates_eq fl ⟨t, l, st, false⟩ _
    cases tok <;> try rfl
    all_goals try exact h _ _ _
    · rename_i x
      cases hx : fl.finite x
      · simp only [hx, Bool.false_eq_true, if_false]; rfl
      · simp only [hx, if_true]; exact h _ _ _
    · simp only [getToken, Spin.get, Machine.emit]
      cases (scanToken fl l.pend).1 <;> try rfl
      exact actStates_eq fl ⟨.endArray, (scanToken fl l.pend).2, st, false⟩ (evs ++ [.startArray] ++ [.endArray])
    · simp only [getToken, Spin.get, Machine.emit]
      cases (scanToken fl l.pend).1 <;> try rfl
      · simp only
        cases (scanToken fl (scanToken fl l.pend).2.pend).1 <;> rfl
      · exact actStates_eq fl ⟨.endObject, (scanToken fl l.pend).2, st, false⟩ (evs ++ [.startObject] ++ [.endObject])
  · exact actStates_eq fl ⟨tok, l, st, false⟩ evs

theorem run_told (fl : Floats F) : ∀ (n : Nat) (m : Spin F) (evs : List (Event F)),
    run fl n (m.with evs) = match told fl n m with
      | .running => .running
      | .done es l => .done l (evs ++ es)
      | .error _ e => .fail e
  | 0, m, evs => rfl
  | n + 1, m, evs => by
    rw [run, told, act_eq, toStep_eq]
    cases (act fl m).final with
    | next m' =>
      simp only
      rw [run_told fl n]
      cases told fl n m' <;> simp [Told.before]
    | done l => rfl
    | error e => rfl

/-! ## What is told is the beginning of the calls for a value -/

/-- an array or an object that has been begun: the values so far, and the key of the next -/
inductive Frame (F : Type) where
  | arr (xs : List (Json F))
  | obj (ms : List (Bytes × Json F)) (k : Bytes)

def Frame.kind : Frame F → Bool
  | .arr _ => true
  | .obj _ _ => false

/-- the calls for the frames, the innermost first, up to the next value -/
def opened : List (Frame F) → List (Event F)
  | [] => []
  | .arr xs :: fs => opened fs ++ .startArray :: eventsL xs
  | .obj ms k :: fs => opened fs ++ .startObject :: (eventsM ms ++ [.key k])

theorem eventsL_snoc (xs : List (Json F)) (v : Json F) : eventsL (xs ++ [v]) = eventsL xs ++ events v := by
  induction xs with
  | nil => simp [eventsL]
  | cons x xs ih => rw [List.cons_append, eventsL, eventsL, ih, List.append_assoc]

theorem eventsM_snoc (ms : List (Bytes × Json F)) (k : Bytes) (v : Json F) :
    eventsM (ms ++ [(k, v)]) = eventsM ms ++ .key k :: events v := by
  induction ms with
  | nil => simp [eventsM]
  | cons x xs ih =>
    obtain ⟨k', v'⟩ := x
    rw [List.cons_append, eventsM, eventsM, ih]; simp

/-- a list of calls that can be completed to the calls for a value -/
def Begins (evs : List (Event F)) : Prop := ∃ w more, evs ++ more = events w

theorem Begins.left {a b : List (Event F)} (h : Begins (a ++ b)) : Begins a := by
  obtain ⟨w, more, h⟩ := h
  exact ⟨w, b ++ more, by rw [← h, List.append_assoc]⟩

theorem begins_value : ∀ (fs : List (Frame F)) (v : Json F), Begins (opened fs ++ events v)
  | [], v => ⟨v, [], by simp [opened]⟩
  | .arr xs :: fs, v => by
    have := begins_value fs (.arr (xs ++ [v]))
    rw [events, eventsL_snoc] at this
    refine Begins.left (b := [.endArray]) ?_
    rw [opened]
    simpa using this
  | .obj ms k :: fs, v => by
    have := begins_value fs (.obj (ms ++ [(k, v)]))
    rw [events, eventsM_snoc] at this
    refine Begins.left (b := [.endObject]) ?_
    rw [opened]
    simpa using this

theorem begins_opened (fs : List (Frame F)) : Begins (opened fs) := (begins_value fs .null).left

/-- the calls so far: up to a value, or up to the end of a value -/
def Spin.Tells (m : Spin F) (evs : List (Event F)) : Prop :=
  ∃ fs : List (Frame F), fs.map Frame.kind = m.states ∧
    ((m.skip = false ∧ evs = opened fs) ∨ (m.skip = true ∧ ∃ v, evs = opened fs ++ events v))

/-- what a round tells goes on from what has been told -/
def Act.Fits (a : Act F) (evs : List (Event F)) : Prop :=
  match a.final with
  | .next m => m.Tells (evs ++ a.calls)
  | .done _ => ∃ v, evs ++ a.calls = events v
  | .error _ => Begins (evs ++ a.calls)

theorem Act.Fits.call {e : Event F} {k : Act F} {evs : List (Event F)} (h : k.Fits (evs ++ [e])) :
    (Act.call e k).Fits evs := by
  simp only [Act.Fits, Act.final, Act.calls] at h ⊢
  cases hf : k.final <;> simp only [hf] at h ⊢ <;> simpa using h

theorem fits_error {e : ParseError} {evs : List (Event F)} (h : Begins evs) : (Act.error e : Act F).Fits evs := by
  simpa [Act.Fits, Act.final, Act.calls] using h

theorem fits_next {m : Spin F} {evs : List (Event F)} (h : m.Tells evs) : (Act.next m).Fits evs := by
  simpa [Act.Fits, Act.final, Act.calls] using h

/-- the end of a value -/
theorem fits_states (fl : Floats F) (tok : Token F) (l : Lex) (fs : List (Frame F)) (v : Json F) :
    (actStates fl ⟨tok, l, fs.map Frame.kind, false⟩).Fits (opened fs ++ events v) := by
  match fs with
  | [] => simp [actStates, Act.Fits, Act.final, Act.calls, opened]
  | .arr xs :: fs =>
    have hb : Begins (opened (.arr xs :: fs) ++ events v) := begins_value _ _
    simp only [List.map_cons, Frame.kind, actStates, Spin.get]
    cases (scanToken fl l.pend).1 <;> try exact fits_error hb
    · refine Act.Fits.call (fits_next ⟨fs, rfl, .inr ⟨rfl, .arr (xs ++ [v]), ?_⟩⟩)
      simp [opened, events, eventsL_snoc]
    · refine fits_next ⟨.arr (xs ++ [v]) :: fs, rfl, .inl ⟨rfl, ?_⟩⟩
      simp [opened, eventsL_snoc]
  | .obj ms k :: fs =>
    have hb : Begins (opened (.obj ms k :: fs) ++ events v) := begins_value _ _
    have hk : ∀ k', opened (.obj (ms ++ [(k, v)]) k' :: fs) = opened (.obj ms k :: fs) ++ events v ++ [.key k'] := by
      intro k'
      simp [opened, eventsM_snoc]
    simp only [List.map_cons, Frame.kind, actStates, Spin.get]
    cases (scanToken fl l.pend).1 <;> try exact fits_error hb
    · refine Act.Fits.call (fits_next ⟨fs, rfl, .inr ⟨rfl, .obj (ms ++ [(k, v)]), ?_⟩⟩)
      simp [opened, events, eventsM_snoc]
    · simp only
      cases (scanToken fl (scanToken fl l.pend).2.pend).1 <;> try exact fits_error hb
      rename_i k'
      refine Act.Fits.call ?_
      rw [← hk]
      cases (scanToken fl (scanToken fl (scanToken fl l.pend).2.pend).2.pend).1 <;>
        try exact fits_error (begins_opened _)
      exact fits_next ⟨.obj (ms ++ [(k, v)]) k' :: fs, rfl, .inl ⟨rfl, rfl⟩⟩

theorem fits_act (fl : Floats F) (m : Spin F) (evs : List (Event F)) (h : m.Tells evs) : (act fl m).Fits evs := by
  obtain ⟨tok, l, st, sk⟩ := m
  obtain ⟨fs, hk, ⟨hs, rfl⟩ | ⟨hs, v, rfl⟩⟩ := h
  · simp only at hs hk
    subst hs hk
    simp only [act, Bool.false_eq_true, if_false]
    have one : ∀ (e : Event F) v, events v = [e] → (Act.call e (actStates fl ⟨tok, l, fs.map Frame.kind, false⟩)).Fits (opened fs) := by
      intro e v hv
      refine Act.Fits.call ?_
      rw [← hv]
      exact fits_states fl _ _ _ _
    have hO := begins_value fs (.obj [])
    simp only [events, eventsM, List.nil_append] at hO
    have hO' : Begins (opened fs ++ [Event.startObject]) := Begins.left (b := [.endObject]) (by simpa using hO)
    cases tok <;> try exact fits_error (begins_opened _)
    · exact one _ (.bool true) rfl
    · exact one _ (.bool false) rfl
    · exact one _ .null rfl
    · exact one _ (.str _) rfl
    · exact one _ (.uint _) rfl
    · exact one _ (.int _) rfl
    · simp only
      split
      · exact one _ (.float _) rfl
      · exact fits_error (begins_opened _)
    · refine Act.Fits.call ?_
      simp only [Spin.get]
      have go : ∀ t l', (Act.next ⟨t, l', true :: fs.map Frame.kind, false⟩ : Act F).Fits (opened fs ++ [.startArray]) :=
        fun t l' => fits_next ⟨.arr [] :: fs, rfl, .inl ⟨rfl, by simp [opened, eventsL]⟩⟩
      cases (scanToken fl l.pend).1 <;> try exact go _ _
      refine Act.Fits.call ?_
      have := fits_states fl .endArray (scanToken fl l.pend).2 fs (.arr [])
      simpa [events, eventsL] using this
    · refine Act.Fits.call ?_
      simp only [Spin.get]
      cases (scanToken fl l.pend).1 <;> try exact fits_error hO'
      · rename_i k
        refine Act.Fits.call ?_
        have ho : opened fs ++ [Event.startObject] ++ [Event.key k] = opened (.obj [] k :: fs) := by
          simp [opened, eventsM]
        rw [ho]
        cases (scanToken fl (scanToken fl l.pend).2.pend).1 <;> try exact fits_error (begins_opened _)
        exact fits_next ⟨.obj [] k :: fs, rfl, .inl ⟨rfl, rfl⟩⟩
      · refine Act.Fits.call ?_
        have := fits_states fl .endObject (scanToken fl l.pend).2 fs (.obj [])
        simpa [events, eventsM] using this
  · simp only at hs hk
    subst hs hk
    simp only [act, if_true]
    exact fits_states fl _ _ _ _

theorem told_begins (fl : Floats F) : ∀ (n : Nat) (m : Spin F) (evs es : List (Event F)) (e : ParseError),
    m.Tells evs → told fl n m = .error es e → Begins (evs ++ es)
  | 0, _, _, _, _, _, h => by cases h
  | n + 1, m, evs, es, e, hm, h => by
    have hf := fits_act fl m evs hm
    rw [told] at h
    simp only [Act.Fits] at hf
    cases ha : (act fl m).final with
    | next m' =>
      rw [ha] at h hf
      simp only at h hf
      cases ht : told fl n m' with
      | running => rw [ht] at h; cases h
      | done es' l' => rw [ht] at h; cases h
      | error es' e' =>
        rw [ht] at h
        simp only [Told.before, Told.error.injEq] at h
        obtain ⟨rfl, rfl⟩ := h
        rw [← List.append_assoc]
        exact told_begins fl n m' _ _ _ hf ht
    | done l => rw [ha] at h; cases h
    | error e' =>
      rw [ha] at h hf
      simp only [Told.error.injEq] at h hf
      obtain ⟨rfl, rfl⟩ := h
      exact hf

/-! ## From the beginning of the input -/

/-- what the parser tells about the text `s` -/
theorem told_first (fl : Floats F) (s : Bytes) :
    (∃ raw l, told fl (2 * s.length + 2) ⟨(scanFirst fl s).1, (scanFirst fl s).2, [], false⟩ = .done (events raw) l ∧
      Stands fl s raw l.pend) ∨
    (∃ evs e, told fl (2 * s.length + 2) ⟨(scanFirst fl s).1, (scanFirst fl s).2, [], false⟩ = .error evs e ∧
      Begins evs) := by
  have hr := run_told fl (2 * s.length + 2) ⟨(scanFirst fl s).1, (scanFirst fl s).2, [], false⟩ []
  cases ht : told fl (2 * s.length + 2) ⟨(scanFirst fl s).1, (scanFirst fl s).2, [], false⟩ with
  | running =>
    rw [ht] at hr
    exact absurd hr (first_ends fl s)
  | done es l =>
    rw [ht] at hr
    obtain ⟨raw, hst, _, he⟩ := (first_iff fl).1 hr
    rw [List.nil_append] at he
    exact .inl ⟨raw, l, by rw [he], hst⟩
  | error es e =>
    refine .inr ⟨es, e, rfl, ?_⟩
    have := told_begins fl _ _ [] _ _ ⟨[], rfl, .inl ⟨rfl, rfl⟩⟩ ht
    simpa using this

end Verif.Json
