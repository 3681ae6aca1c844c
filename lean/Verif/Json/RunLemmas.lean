import Verif.Json.TokLemmas

/-!
# Lemmas about the parser

The loop with its stack accepts what a recursive description by tokens accepts (`PV`), and that is
what the grammar says.
-/

namespace Verif.Json
open Spec

mutual
/-- the calls that build a value -/
def events : Json F → List (Event F)
  | .null => [.null]
  | .bool b => [.bool b]
  | .int i => [.int i]
  | .uint n => [.uint n]
  | .float x => [.float x]
  | .str s => [.str s]
  | .arr xs => .startArray :: (eventsL xs ++ [.endArray])
  | .obj ms => .startObject :: (eventsM ms ++ [.endObject])
def eventsL : List (Json F) → List (Event F)
  | [] => []
  | v :: vs => events v ++ eventsL vs
def eventsM : List (Bytes × Json F) → List (Event F)
  | [] => []
  | (k, v) :: ms => .key k :: (events v ++ eventsM ms)
end

/-- the value a single token stands for -/
inductive TokVal (fl : Floats F) : Token F → Json F → Prop
  | null : TokVal fl .litNull .null
  | true : TokVal fl .litTrue (.bool true)
  | false : TokVal fl .litFalse (.bool false)
  | int {i : Int} : TokVal fl (.int i) (.int i)
  | uint {n : Nat} : TokVal fl (.uint n) (.uint n)
  | float {x : F} : fl.finite x = true → TokVal fl (.float x) (.float x)
  | str {s : Bytes} : TokVal fl (.str s) (.str s)

mutual
/-- a value, its first token read -/
inductive PV (fl : Floats F) : Token F → Lex → Json F → Lex → Prop
  | tok {tok : Token F} {v : Json F} {l : Lex} : TokVal fl tok v → PV fl tok l v l
  | emptyArr {l l' : Lex} : scanToken fl l.pend = (.endArray, l') → PV fl .beginArray l (.arr []) l'
  | arr {l l1 l' : Lex} {tok : Token F} {vs : List (Json F)} :
      scanToken fl l.pend = (tok, l1) → PE fl tok l1 vs l' → PV fl .beginArray l (.arr vs) l'
  | emptyObj {l l' : Lex} : scanToken fl l.pend = (.endObject, l') →
      PV fl .beginObject l (.obj []) l'
  | obj {l l' : Lex} {ms : List (Bytes × Json F)} : PM fl l ms l' → PV fl .beginObject l (.obj ms) l'

/-- the elements of an array, the first token read, up to the bracket -/
inductive PE (fl : Floats F) : Token F → Lex → List (Json F) → Lex → Prop
  | one {tok : Token F} {l l1 l' : Lex} {v : Json F} : PV fl tok l v l1 →
      scanToken fl l1.pend = (.endArray, l') → PE fl tok l [v] l'
  | cons {tok tok' : Token F} {l l1 l2 l3 l' : Lex} {v : Json F} {vs : List (Json F)} :
      PV fl tok l v l1 → scanToken fl l1.pend = (.valueSeparator, l2) →
      scanToken fl l2.pend = (tok', l3) → PE fl tok' l3 vs l' → PE fl tok l (v :: vs) l'

/-- the members of an object, nothing read, up to the brace -/
inductive PM (fl : Floats F) : Lex → List (Bytes × Json F) → Lex → Prop
  | one {tok : Token F} {l l1 l2 l3 l4 l' : Lex} {k : Bytes} {v : Json F} :
      scanToken fl l.pend = (.str k, l1) → scanToken fl l1.pend = (.nameSeparator, l2) →
      scanToken fl l2.pend = (tok, l3) → PV fl tok l3 v l4 →
      scanToken fl l4.pend = (.endObject, l') → PM fl l [(k, v)] l'
  | cons {tok : Token F} {l l1 l2 l3 l4 l5 l' : Lex} {k : Bytes} {v : Json F}
      {ms : List (Bytes × Json F)} :
      scanToken fl l.pend = (.str k, l1) → scanToken fl l1.pend = (.nameSeparator, l2) →
      scanToken fl l2.pend = (tok, l3) → PV fl tok l3 v l4 →
      scanToken fl l4.pend = (.valueSeparator, l5) → PM fl l5 ms l' → PM fl l ((k, v) :: ms) l'
end

theorem PV.value_tok {fl : Floats F} {tok : Token F} {l l' : Lex} {v : Json F}
    (h : PV fl tok l v l') : tok ≠ .endArray ∧ tok ≠ .error ∧ tok ≠ .eof := by
  cases h with
  | tok h => cases h <;> simp
  | _ => simp

theorem PE.value_tok {fl : Floats F} {tok : Token F} {l l' : Lex} {vs : List (Json F)}
    (h : PE fl tok l vs l') : tok ≠ .endArray ∧ tok ≠ .error ∧ tok ≠ .eof := by
  cases h with
  | one h => exact h.value_tok
  | cons h => exact h.value_tok

/-! ## The loop and the recursive description -/

/-- the loop from the place where a value has been parsed -/
def afterV (fl : Floats F) (n : Nat) (l : Lex) (st : List Bool) (evs : List (Event F)) :
    RunResult F :=
  match evalStates fl ⟨.eof, l, st, false, evs⟩ with
  | .next m' => run fl n m'
  | .done l evs => .done l evs
  | .fail e => .fail e

theorem evalStates_tok (fl : Floats F) (t t' : Token F) (l : Lex) (st : List Bool)
    (evs : List (Event F)) :
    evalStates fl ⟨t, l, st, false, evs⟩ = evalStates fl ⟨t', l, st, false, evs⟩ := by
  rcases st with _ | ⟨_ | _, st⟩ <;> rfl

theorem run_eval (fl : Floats F) (n : Nat) (t : Token F) (l : Lex) (st : List Bool)
    (evs : List (Event F)) (m : Machine F)
    (h : step fl m = evalStates fl ⟨t, l, st, false, evs⟩) :
    run fl (n + 1) m = afterV fl n l st evs := by
  rw [run, h, evalStates_tok fl t .eof]; rfl

theorem run_next (fl : Floats F) (n : Nat) (m m' : Machine F) (h : step fl m = .next m') :
    run fl (n + 1) m = run fl n m' := by rw [run, h]

theorem run_skip (fl : Floats F) (n : Nat) (t : Token F) (l : Lex) (st : List Bool)
    (evs : List (Event F)) :
    run fl (n + 1) ⟨t, l, st, true, evs⟩ = afterV fl n l st evs :=
  run_eval fl n t l st evs _ rfl

theorem run_tok (fl : Floats F) {tok : Token F} {v : Json F} (h : TokVal fl tok v) (n : Nat)
    (l : Lex) (st : List Bool) (evs : List (Event F)) :
    run fl (n + 1) ⟨tok, l, st, false, evs⟩ = afterV fl n l st (evs ++ events v) := by
  cases h with
  | float hx =>
    rename_i x
    refine run_eval fl n (.float x) l st _ _ ?_
    simp only [step, Bool.false_eq_true, if_false, events, Machine.emit]
    rw [if_pos hx]
  | null => exact run_eval fl n .litNull l st _ _ rfl
  | true => exact run_eval fl n .litTrue l st _ _ rfl
  | false => exact run_eval fl n .litFalse l st _ _ rfl
  | int => exact run_eval fl n (.int _) l st _ _ rfl
  | uint => exact run_eval fl n (.uint _) l st _ _ rfl
  | str => exact run_eval fl n (.str _) l st _ _ rfl

theorem getToken_eq {fl : Floats F} {t t' : Token F} {l l' : Lex} {st : List Bool} {sk : Bool}
    {evs : List (Event F)} (h : scanToken fl l.pend = (t', l')) :
    getToken fl ⟨t, l, st, sk, evs⟩ = ⟨t', l', st, sk, evs⟩ := by
  simp only [getToken, h]

mutual
theorem run_PV (fl : Floats F) {tok : Token F} {l l' : Lex} {v : Json F} (h : PV fl tok l v l') :
    ∃ k, ∀ n st evs, run fl (n + k) ⟨tok, l, st, false, evs⟩ =
      afterV fl n l' st (evs ++ events v) :=
  match h with
  | .tok h => ⟨1, fun n st evs => run_tok fl h n _ st evs⟩
  | .emptyArr h1 => ⟨1, fun n st evs => by
      refine run_eval fl n .endArray _ st _ _ ?_
      simp only [step, Bool.false_eq_true, if_false, Machine.emit, getToken_eq h1, events, eventsL]
      simp⟩
  | .emptyObj h1 => ⟨1, fun n st evs => by
      refine run_eval fl n .endObject _ st _ _ ?_
      simp only [step, Bool.false_eq_true, if_false, Machine.emit, getToken_eq h1, events, eventsM]
      simp⟩
  | .arr h1 h2 => by
      obtain ⟨k, hk⟩ := run_PE fl h2
      refine ⟨k + 1, fun n st evs => ?_⟩
      rw [← Nat.add_assoc, run_next fl _ _ ⟨_, _, true :: st, false, evs ++ [.startArray]⟩, hk]
      · simp [events]
      · simp only [step, Bool.false_eq_true, if_false, Machine.emit, getToken_eq h1]
        have := h2.value_tok.1
        split
        · exact absurd rfl this
        · rfl
  | .obj h1 => by
      obtain ⟨tok, l1, l2, l3, k, h2, h3, h4, j, hj⟩ := run_PM fl h1
      refine ⟨j + 1, fun n st evs => ?_⟩
      rw [← Nat.add_assoc, run_next fl _ _ ⟨_, _, false :: st, false, evs ++ [.startObject, .key k]⟩]
      · have := hj n st (evs ++ [.startObject])
        rw [List.append_assoc] at this
        rw [show [Event.startObject, Event.key k] = [Event.startObject] ++ [Event.key (F := F) k]
          from rfl, this]
        simp [events]
      · simp only [step, Bool.false_eq_true, if_false, Machine.emit, getToken_eq h2,
          getToken_eq h3, getToken_eq h4]
        simp
theorem run_PE (fl : Floats F) {tok : Token F} {l l' : Lex} {vs : List (Json F)}
    (h : PE fl tok l vs l') :
    ∃ k, ∀ n st evs, run fl (n + k) ⟨tok, l, true :: st, false, evs⟩ =
      afterV fl n l' st (evs ++ eventsL vs ++ [.endArray]) :=
  match h with
  | .one h1 h2 => by
      obtain ⟨k, hk⟩ := run_PV fl h1
      refine ⟨k + 1, fun n st evs => ?_⟩
      rw [show n + (k + 1) = (n + 1) + k by omega, hk, afterV]
      simp only [evalStates, getToken_eq h2, Machine.emit]
      rw [run_skip]
      simp [eventsL]
  | .cons h1 h2 h3 h4 => by
      obtain ⟨k, hk⟩ := run_PV fl h1
      obtain ⟨j, hj⟩ := run_PE fl h4
      refine ⟨j + k, fun n st evs => ?_⟩
      rw [show n + (j + k) = (n + j) + k by omega, hk, afterV]
      simp only [evalStates, getToken_eq h2, getToken_eq h3]
      rw [hj]
      simp [eventsL]
theorem run_PM (fl : Floats F) {l l' : Lex} {ms : List (Bytes × Json F)}
    (h : PM fl l ms l') :
    ∃ tok l1 l2 l3 k, scanToken fl l.pend = (.str k, l1) ∧
      scanToken fl l1.pend = (.nameSeparator, l2) ∧ scanToken fl l2.pend = (tok, l3) ∧
      ∃ j, ∀ n st evs, run fl (n + j) ⟨tok, l3, false :: st, false, evs ++ [.key k]⟩ =
        afterV fl n l' st (evs ++ eventsM ms ++ [.endObject]) :=
  match h with
  | .one h1 h2 h3 h4 h5 => by
      obtain ⟨k, hk⟩ := run_PV fl h4
      refine ⟨_, _, _, _, _, h1, h2, h3, k + 1, fun n st evs => ?_⟩
      rw [show n + (k + 1) = (n + 1) + k by omega, hk, afterV]
      simp only [evalStates, getToken_eq h5, Machine.emit]
      rw [run_skip]
      simp [eventsM]
  | .cons h1 h2 h3 h4 h5 h6 => by
      obtain ⟨k, hk⟩ := run_PV fl h4
      obtain ⟨tok', l1', l2', l3', k', g1, g2, g3, j, hj⟩ := run_PM fl h6
      refine ⟨_, _, _, _, _, h1, h2, h3, j + k, fun n st evs => ?_⟩
      rw [show n + (j + k) = (n + j) + k by omega, hk, afterV]
      simp only [evalStates, getToken_eq h5, getToken_eq g1, getToken_eq g2, getToken_eq g3,
        Machine.emit]
      rw [hj]
      simp [eventsM]
end

/-- what the loop has done when it ends: for a value, the elements of an array and the members of an
object -/
theorem run_sound (fl : Floats F) (lf : Lex) (ef : List (Event F)) : ∀ n : Nat,
    (∀ tok l st evs, run fl n ⟨tok, l, st, false, evs⟩ = .done lf ef →
      ∃ v l' n', n' < n ∧ PV fl tok l v l' ∧
        afterV fl n' l' st (evs ++ events v) = .done lf ef) ∧
    (∀ tok l st evs, run fl n ⟨tok, l, true :: st, false, evs⟩ = .done lf ef →
      ∃ vs l' n', n' < n ∧ PE fl tok l vs l' ∧
        afterV fl n' l' st (evs ++ eventsL vs ++ [.endArray]) = .done lf ef) ∧
    (∀ l l1 l2 l3 tok k st evs, scanToken fl l.pend = (.str k, l1) →
      scanToken fl l1.pend = (.nameSeparator, l2) → scanToken fl l2.pend = (tok, l3) →
      run fl n ⟨tok, l3, false :: st, false, evs ++ [.key k]⟩ = .done lf ef →
      ∃ ms l' n', n' < n ∧ PM fl l ms l' ∧
        afterV fl n' l' st (evs ++ eventsM ms ++ [.endObject]) = .done lf ef) := by
  intro n
  induction n using Nat.strongRecOn with
  | _ n ih =>
  have hV : ∀ tok l st evs, run fl n ⟨tok, l, st, false, evs⟩ = .done lf ef →
      ∃ v l' n', n' < n ∧ PV fl tok l v l' ∧
        afterV fl n' l' st (evs ++ events v) = .done lf ef := by
    intro tok l st evs h
    rcases n with _ | n
    · cases h
    have scalar : ∀ v, TokVal fl tok v →
        ∃ v l' n', n' < n + 1 ∧ PV fl tok l v l' ∧
          afterV fl n' l' st (evs ++ events v) = .done lf ef := by
      intro v hv
      rw [run_tok fl hv] at h
      exact ⟨v, l, n, by omega, .tok hv, h⟩
    cases tok with
    | litTrue => exact scalar _ .true
    | litFalse => exact scalar _ .false
    | litNull => exact scalar _ .null
    | str s => exact scalar _ .str
    | uint n => exact scalar _ .uint
    | int i => exact scalar _ .int
    | float x =>
      by_cases hx : fl.finite x = true
      · exact scalar _ (.float hx)
      · rw [run] at h
        simp only [step, Bool.false_eq_true, if_false, hx] at h
        cases h
    | beginArray =>
      rcases hs : scanToken fl l.pend with ⟨t, l1⟩
      by_cases ht : t = .endArray
      · subst ht
        obtain ⟨k, hk⟩ := run_PV fl (PV.emptyArr hs)
        rw [run_eval fl n .endArray l1 st (evs ++ events (.arr []))] at h
        · exact ⟨_, l1, n, by omega, .emptyArr hs, h⟩
        · simp only [step, Bool.false_eq_true, if_false, Machine.emit, getToken_eq hs, events,
            eventsL]
          simp
      · rw [run_next fl n _ ⟨t, l1, true :: st, false, evs ++ [.startArray]⟩] at h
        · obtain ⟨vs, l', n', hn', hp, ha⟩ := (ih n (by omega)).2.1 _ _ _ _ h
          refine ⟨_, l', n', by omega, .arr hs hp, ?_⟩
          rw [← ha]; simp [events]
        · simp only [step, Bool.false_eq_true, if_false, Machine.emit, getToken_eq hs]
    | beginObject =>
      rcases hs : scanToken fl l.pend with ⟨t, l1⟩
      by_cases ht : t = .endObject
      · subst ht
        rw [run_eval fl n .endObject l1 st (evs ++ events (.obj []))] at h
        · exact ⟨_, l1, n, by omega, .emptyObj hs, h⟩
        · simp only [step, Bool.false_eq_true, if_false, Machine.emit, getToken_eq hs, events,
            eventsM]
          simp
      · have hk : ∃ k, t = .str k := by
          rw [run] at h
          simp only [step, Bool.false_eq_true, if_false, Machine.emit, getToken_eq hs] at h
          cases t with
          | str k => exact ⟨k, rfl⟩
          | endObject => exact absurd rfl ht
          | _ => cases h
        obtain ⟨k, rfl⟩ := hk
        rcases hs2 : scanToken fl l1.pend with ⟨t2, l2⟩
        have ht2 : t2 = .nameSeparator := by
          rw [run] at h
          simp only [step, Bool.false_eq_true, if_false, Machine.emit, getToken_eq hs,
            getToken_eq hs2] at h
          cases t2 with
          | nameSeparator => rfl
          | _ => cases h
        subst ht2
        rcases hs3 : scanToken fl l2.pend with ⟨t3, l3⟩
        rw [run_next fl n _ ⟨t3, l3, false :: st, false, (evs ++ [.startObject]) ++ [.key k]⟩] at h
        · obtain ⟨ms, l', n', hn', hp, ha⟩ := (ih n (by omega)).2.2 _ _ _ _ _ _ _ _ hs hs2 hs3 h
          refine ⟨_, l', n', by omega, .obj hp, ?_⟩
          rw [← ha]; simp [events]
        · simp only [step, Bool.false_eq_true, if_false, Machine.emit, getToken_eq hs,
            getToken_eq hs2, getToken_eq hs3]
    | _ => cases h
  refine ⟨hV, ?_, ?_⟩
  · intro tok l st evs h
    obtain ⟨v, l1, n1, hn1, hp, ha⟩ := hV tok l (true :: st) evs h
    rcases hs : scanToken fl l1.pend with ⟨t, l2⟩
    rw [afterV] at ha
    simp only [evalStates, getToken_eq hs] at ha
    cases t with
    | valueSeparator =>
      simp only at ha
      rcases hs2 : scanToken fl l2.pend with ⟨t3, l3⟩
      rw [getToken_eq hs2] at ha
      obtain ⟨vs, l', n', hn', hq, hb⟩ := (ih n1 hn1).2.1 _ _ _ _ ha
      refine ⟨v :: vs, l', n', by omega, .cons hp hs hs2 hq, ?_⟩
      rw [← hb]; simp [eventsL]
    | endArray =>
      simp only [Machine.emit] at ha
      rcases n1 with _ | n1
      · cases ha
      rw [run_skip] at ha
      refine ⟨[v], l2, n1, by omega, .one hp hs, ?_⟩
      rw [← ha]; simp [eventsL]
    | _ => cases ha
  · intro l l1 l2 l3 tok k st evs g1 g2 g3 h
    obtain ⟨v, l4, n1, hn1, hp, ha⟩ := hV tok l3 (false :: st) _ h
    rcases hs : scanToken fl l4.pend with ⟨t, l5⟩
    rw [afterV] at ha
    simp only [evalStates, getToken_eq hs] at ha
    cases t with
    | valueSeparator =>
      simp only at ha
      rcases hs2 : scanToken fl l5.pend with ⟨t6, l6⟩
      rw [getToken_eq hs2] at ha
      cases t6 with
      | str k' =>
        simp only [Machine.emit] at ha
        rcases hs3 : scanToken fl l6.pend with ⟨t7, l7⟩
        rw [getToken_eq hs3] at ha
        cases t7 with
        | nameSeparator =>
          simp only at ha
          rcases hs4 : scanToken fl l7.pend with ⟨t8, l8⟩
          rw [getToken_eq hs4] at ha
          obtain ⟨ms, l', n', hn', hq, hb⟩ := (ih n1 hn1).2.2 _ _ _ _ _ _ _ _ hs2 hs3 hs4 ha
          refine ⟨(k, v) :: ms, l', n', by omega, .cons g1 g2 g3 hp hs hq, ?_⟩
          rw [← hb]; simp [eventsM]
        | _ => cases ha
      | _ => cases ha
    | endObject =>
      simp only [Machine.emit] at ha
      rcases n1 with _ | n1
      · cases ha
      rw [run_skip] at ha
      refine ⟨[(k, v)], l5, n1, by omega, .one g1 g2 g3 hp hs, ?_⟩
      rw [← ha]; simp [eventsM]
    | _ => cases ha

/-! ## The loop ends -/

def Token.bad : Token F → Bool
  | .error | .eof => true
  | _ => false

theorem scan_shorter (fl : Floats F) {s : Bytes} {tok : Token F} {l : Lex}
    (h : scanToken fl s = (tok, l)) (ht : tok.bad = false) : l.pend.length < s.length := by
  obtain ⟨w, t, _, rfl, htt, _⟩ := scan_sound fl s tok l h (by rintro rfl; cases ht)
    (by rintro rfl; cases ht)
  have := List.length_pos_iff.2 htt.ne_nil
  simp only [List.length_append]
  omega

/-- a bound on the number of rounds -/
def Machine.weight (m : Machine F) : Nat :=
  if m.skip then 2 * m.lex.pend.length
  else if m.tok.bad then 0 else 2 * m.lex.pend.length + 1

theorem evalStates_weight (fl : Floats F) {m m' : Machine F} (hs : m.skip = false)
    (h : evalStates fl m = .next m') : m'.weight < 2 * m.lex.pend.length := by
  obtain ⟨tok, l, st, sk, evs⟩ := m
  simp only at hs
  subst hs
  have read : ∀ (t : Token F) (la : Lex) (st : List Bool) (evs : List (Event F)),
      la.pend.length < l.pend.length →
      (getToken fl ⟨t, la, st, false, evs⟩).weight < 2 * l.pend.length := by
    intro t la st evs hl
    rcases h1 : scanToken fl la.pend with ⟨t', lb⟩
    rw [getToken_eq h1]
    simp only [Machine.weight, Bool.false_eq_true, if_false]
    split
    · omega
    · next hb =>
      have := scan_shorter fl h1 (by simpa using hb)
      omega
  rcases h1 : scanToken fl l.pend with ⟨t1, l1⟩
  rcases st with _ | ⟨_ | _, st⟩
  · cases h
  · simp only [evalStates, getToken_eq h1] at h
    cases t1 with
    | valueSeparator =>
      have e1 := scan_shorter fl h1 rfl
      rcases h2 : scanToken fl l1.pend with ⟨t2, l2⟩
      simp only [getToken_eq h2] at h
      cases t2 with
      | str k =>
        have e2 := scan_shorter fl h2 rfl
        rcases h3 : scanToken fl l2.pend with ⟨t3, l3⟩
        simp only [Machine.emit, getToken_eq h3] at h
        cases t3 with
        | nameSeparator =>
          have e3 := scan_shorter fl h3 rfl
          simp only [Step.next.injEq] at h
          rw [← h]
          exact read _ _ _ _ (by omega)
        | _ => cases h
      | _ => cases h
    | endObject =>
      have e1 := scan_shorter fl h1 rfl
      simp only [Machine.emit, Step.next.injEq] at h
      rw [← h]
      simp only [Machine.weight, if_true]
      omega
    | _ => cases h
  · simp only [evalStates, getToken_eq h1] at h
    cases t1 with
    | valueSeparator =>
      have e1 := scan_shorter fl h1 rfl
      simp only [Step.next.injEq] at h
      rw [← h]
      exact read _ _ _ _ (by omega)
    | endArray =>
      have e1 := scan_shorter fl h1 rfl
      simp only [Machine.emit, Step.next.injEq] at h
      rw [← h]
      simp only [Machine.weight, if_true]
      omega
    | _ => cases h

theorem step_weight (fl : Floats F) {m m' : Machine F} (h : step fl m = .next m') :
    m'.weight < m.weight := by
  obtain ⟨tok, l, st, sk, evs⟩ := m
  cases sk with
  | true =>
    simp only [step, if_true] at h
    have := evalStates_weight fl rfl h
    simpa [Machine.weight] using this
  | false =>
    have hw : tok.bad = false →
        Machine.weight ⟨tok, l, st, false, evs⟩ = 2 * l.pend.length + 1 := by
      intro hb; simp [Machine.weight, hb]
    have scalar : ∀ (v : Event F), tok.bad = false →
        evalStates fl ((⟨tok, l, st, false, evs⟩ : Machine F).emit v) = .next m' →
        m'.weight < Machine.weight ⟨tok, l, st, false, evs⟩ := by
      intro v hb h
      have := evalStates_weight fl rfl h
      simp only [Machine.emit] at this
      rw [hw hb]
      omega
    simp only [step, Bool.false_eq_true, if_false] at h
    cases tok with
    | litTrue => exact scalar _ rfl h
    | litFalse => exact scalar _ rfl h
    | litNull => exact scalar _ rfl h
    | str s => exact scalar _ rfl h
    | uint n => exact scalar _ rfl h
    | int i => exact scalar _ rfl h
    | float x =>
      simp only at h
      split at h
      · exact scalar _ rfl h
      · cases h
    | beginArray =>
      rw [hw rfl]
      rcases h1 : scanToken fl l.pend with ⟨t1, l1⟩
      simp only [Machine.emit, getToken_eq h1] at h
      by_cases ht : t1 = .endArray
      · subst ht
        have e1 := scan_shorter fl h1 rfl
        have := evalStates_weight fl rfl h
        simp only at this
        omega
      · have h' : m' = ⟨t1, l1, true :: st, false, evs ++ [.startArray]⟩ := by
          split at h
          · exact absurd rfl ht
          · simpa using h.symm
        rw [h']
        simp only [Machine.weight, Bool.false_eq_true, if_false]
        split
        · omega
        · next hb => have := scan_shorter fl h1 (by simpa using hb); omega
    | beginObject =>
      rw [hw rfl]
      rcases h1 : scanToken fl l.pend with ⟨t1, l1⟩
      simp only [Machine.emit, getToken_eq h1] at h
      cases t1 with
      | endObject =>
        have e1 := scan_shorter fl h1 rfl
        have := evalStates_weight fl rfl h
        simp only at this
        omega
      | str k =>
        have e1 := scan_shorter fl h1 rfl
        rcases h2 : scanToken fl l1.pend with ⟨t2, l2⟩
        simp only [getToken_eq h2] at h
        cases t2 with
        | nameSeparator =>
          have e2 := scan_shorter fl h2 rfl
          rcases h3 : scanToken fl l2.pend with ⟨t3, l3⟩
          simp only [getToken_eq h3, Step.next.injEq] at h
          rw [← h]
          simp only [Machine.weight, Bool.false_eq_true, if_false]
          split
          · omega
          · next hb => have := scan_shorter fl h3 (by simpa using hb); omega
        | _ => cases h
      | _ => cases h
    | _ => cases h

/-- the loop ends within the bound -/
theorem run_terminates (fl : Floats F) : ∀ (n : Nat) (m : Machine F), m.weight < n →
    run fl n m ≠ .running := by
  intro n
  induction n with
  | zero => intro m h; omega
  | succ n ih =>
    intro m h
    rw [run]
    rcases hs : step fl m with m' | _ | _
    · have := step_weight fl hs
      exact ih m' (by omega)
    · simp
    · simp

/-- more rounds do not change the result -/
theorem run_more (fl : Floats F) : ∀ (n k : Nat) (m : Machine F), run fl n m ≠ .running →
    run fl (n + k) m = run fl n m := by
  intro n
  induction n with
  | zero => intro k m h; exact absurd rfl h
  | succ n ih =>
    intro k m h
    rw [Nat.add_right_comm, run, run]
    rw [run] at h
    rcases hs : step fl m with m' | _ | _
    · rw [hs] at h; exact ih k m' h
    · rfl
    · rfl

end Verif.Json
