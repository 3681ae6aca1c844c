import Verif.Json.TornLemmas
import Verif.Json.PropsSax

/-!
# The value when reading JSON fails: the properties
-/

namespace Verif.Json
open Spec

/-- how reading from a stream ends -/
theorem readInto_cases (fl : Floats F) (old : Json F) (s : Bytes) :
    (∃ raw rest, extract fl old s = .ok (tidy raw, rest) ∧ readInto fl old s = .ok (tidy raw, none)) ∨
    (∃ evs e, extract fl old s = .throws (ParseError.kind e) ∧
      told fl (2 * s.length + 2) ⟨(scanFirst fl s).1, (scanFirst fl s).2, [], false⟩ = .error evs e ∧
      ((evs = [] ∧ readInto fl old s = .ok (old, some e.kind)) ∨
        ∃ raw, Torn evs raw ∧ readInto fl old s = .ok (tidy raw, some e.kind))) := by
  have hrun := run_told fl (2 * s.length + 2) ⟨(scanFirst fl s).1, (scanFirst fl s).2, [], false⟩ []
  simp only [Spin.with] at hrun
  rcases told_first fl s with ⟨raw, l, ht, hst⟩ | ⟨evs, e, ht, w, more, hw⟩
  · rw [ht] at hrun
    simp only [List.nil_append] at hrun
    obtain ⟨d, hd, hroot⟩ := build_events raw old
    refine .inl ⟨raw, if l.over then l.pend.tail else l.pend, ?_, ?_⟩
    · simp only [extract, parse, hrun, hd, hroot]
      rfl
    · rw [readInto, Sax.internal, (loop_eq fl _ _ _ _).1 _ _ ht, deliver_torn _ _ _ _ hd, ← hroot]
      rfl
  · rw [ht] at hrun
    refine .inr ⟨evs, e, ?_, ht, ?_⟩
    · simp only [extract, parse, hrun]
      cases e <;> rfl
    · rcases torn_prefix w evs more hw with rfl | ⟨raw, hr⟩
      · refine .inl ⟨rfl, ?_⟩
        rw [readInto, Sax.internal, (loop_eq fl _ _ _ _).2 _ _ ht]
        rfl
      · refine .inr ⟨raw, hr, ?_⟩
        obtain ⟨d, hd, hroot⟩ := onAll_torn hr _ _ _ (Ready.root old)
        rw [readInto, Sax.internal, (loop_eq fl _ _ _ _).2 _ _ ht, deliver_torn _ _ _ _ hd, ← hroot]
        rfl

/-- **C154** `operator>>` either reads a value, whatever the variable held before, or throws; it does nothing else. -/
theorem C154_same (fl : Floats F) (old : Json F) (s : Bytes) :
    (∀ v, readInto fl old s = .ok (v, none) ↔ ∃ rest, extract fl old s = .ok (v, rest)) ∧
    (∀ k, (∃ v, readInto fl old s = .ok (v, some k)) ↔ extract fl old s = .throws k) := by
  rcases readInto_cases fl old s with ⟨raw, rest, h1, h2⟩ | ⟨evs, e, h1, _, ⟨_, h2⟩ | ⟨raw, _, h2⟩⟩ <;>
    simp [h1, h2]

/-- `[1]` -/
example (fl : Floats F) : readInto fl (.str [0x78]) [0x5B, 0x31, 0x5D] = .ok (.arr [.uint 1], none) :=
  ((C154_same fl _ _).1 _).2 ⟨[], rfl⟩

/-- **C154** (what holds) When `operator>>` throws, the variable holds what a consumer of events had been told until
then: the elements and members that were complete, and as much of the one that was not (a key without a
value has null, or keeps the value an earlier one of the same name had).  If nothing had been told, it is
as it was. -/
theorem C154_torn (fl : Floats F) (old : Json F) (s : Bytes) (k : String) (h : extract fl old s = .throws k) :
    ∃ evs e, ParseError.kind e = k ∧
      (∀ {σ : Type} (H : Sax F σ) (st : σ), H.parse fl false s st =
        (deliver H evs st >>= fun r =>
          if r.1 then H.error e r.2 >>= fun st => .ok (false, st) else .ok (false, r.2))) ∧
      ((evs = [] ∧ readInto fl old s = .ok (old, some k)) ∨
        ∃ raw, Torn evs raw ∧ readInto fl old s = .ok (tidy raw, some k)) := by
  rcases readInto_cases fl old s with ⟨raw, rest, h1, h2⟩ | ⟨evs, e, h1, ht, h2⟩
  · rw [h] at h1; cases h1
  · rw [h] at h1
    have hk : ParseError.kind e = k := by injection h1 with h1; exact h1.symm
    refine ⟨evs, e, hk, fun H st => ?_, by rw [← hk]; exact h2⟩
    rw [Sax.parse, Sax.internal, (loop_eq fl H _ _ st).2 _ _ ht, Outcome.bind_assoc']
    congr 1
    funext r
    obtain ⟨b, st'⟩ := r
    cases b
    · rfl
    · simp only [if_true]
      rw [Outcome.bind_assoc']
      rfl

/-- `{"a":1,"b":[2,` leaves `{"a":1,"b":[2]}`; `{"a":1,"b"` leaves `{"a":1,"b":null}`; `{"a":1,"a"` leaves `{"a":1}` -/
example (fl : Floats F) (old : Json F) :
    readInto fl old [0x7B, 0x22, 0x61, 0x22, 0x3A, 0x31, 0x2C, 0x22, 0x62, 0x22, 0x3A, 0x5B, 0x32, 0x2C] =
      .ok (.obj [([0x61], .uint 1), ([0x62], .arr [.uint 2])], some "parse_error.101") ∧
    readInto fl old [0x7B, 0x22, 0x61, 0x22, 0x3A, 0x31, 0x2C, 0x22, 0x62, 0x22] =
      .ok (.obj [([0x61], .uint 1), ([0x62], .null)], some "parse_error.101") ∧
    readInto fl old [0x7B, 0x22, 0x61, 0x22, 0x3A, 0x31, 0x2C, 0x22, 0x61, 0x22] =
      .ok (.obj [([0x61], .uint 1)], some "parse_error.101") := ⟨rfl, rfl, rfl⟩

theorem torn_array {es : List (Event F)} {raw : Json F} (h : Torn (.startArray :: es) raw) : ∃ xs, raw = .arr xs := by
  generalize he : (.startArray :: es : List (Event F)) = l at h
  cases h with
  | whole => cases raw <;> simp [events] at he ⊢
  | _ => simp at he ⊢

theorem torn_object {es : List (Event F)} {raw : Json F} (h : Torn (.startObject :: es) raw) : ∃ ms, raw = .obj ms := by
  generalize he : (.startObject :: es : List (Event F)) = l at h
  cases h with
  | whole => cases raw <;> simp [events] at he ⊢
  | _ => simp at he ⊢

theorem told_calls (fl : Floats F) {n : Nat} {m : Spin F} {evs : List (Event F)} {e : ParseError}
    (h : told fl (n + 1) m = .error evs e) : ∃ es, evs = (act fl m).calls ++ es := by
  rw [told] at h
  cases hf : (act fl m).final with
  | next m' =>
    rw [hf] at h
    simp only at h
    cases ht : told fl n m' with
    | running => rw [ht] at h; cases h
    | done _ _ => rw [ht] at h; cases h
    | error es' e' =>
      rw [ht] at h
      simp only [Told.before, Told.error.injEq] at h
      exact ⟨es', h.1.symm⟩
  | done l => rw [hf] at h; cases h
  | error e' =>
    rw [hf] at h
    simp only [Told.error.injEq] at h
    exact ⟨[], by rw [h.1]; simp⟩

/-- a first token that begins nothing: no error after a call -/
theorem told_scalar (fl : Floats F) {n : Nat} {tok : Token F} {l : Lex} {evs : List (Event F)} {e : ParseError}
    (ha : tok ≠ .beginArray) (ho : tok ≠ .beginObject)
    (h : told fl (n + 1) ⟨tok, l, [], false⟩ = .error evs e) : evs = [] := by
  rw [told] at h
  cases tok with
  | beginArray => exact absurd rfl ha
  | beginObject => exact absurd rfl ho
  | float x =>
    by_cases hx : fl.finite x = true <;>
      simp [act, actStates, Act.final, Act.calls, hx] at h
    exact h.1
  | _ => simp [act, actStates, Act.final, Act.calls] at h <;> exact h.1

/-- **C154** When `operator>>` throws, whether the variable has changed is decided by the first character of the
text that is not white space: after `[` it is an array, after `{` an object, otherwise it is as
it was. -/
theorem C154_first (fl : Floats F) (old v : Json F) (s : Bytes) (k : String) (h : readInto fl old s = .ok (v, some k)) :
    ((∃ b w r, Bom b ∧ Ws w ∧ s = b ++ w ++ 0x5B :: r) → ∃ xs, v = .arr xs) ∧
    ((∃ b w r, Bom b ∧ Ws w ∧ s = b ++ w ++ 0x7B :: r) → ∃ ms, v = .obj ms) ∧
    ((¬ ∃ b w r, Bom b ∧ Ws w ∧ (s = b ++ w ++ 0x5B :: r ∨ s = b ++ w ++ 0x7B :: r)) → v = old) := by
  rcases readInto_cases fl old s with ⟨raw, rest, h1, h2⟩ | ⟨evs, e, h1, ht, h2⟩
  · rw [h] at h2; cases h2
  · have hv : (evs = [] ∧ v = old) ∨ ∃ raw, Torn evs raw ∧ v = tidy raw := by
      rcases h2 with ⟨rfl, h2⟩ | ⟨raw, hr, h2⟩ <;> rw [h] at h2 <;> injection h2 with h2 <;> injection h2 with h2 _
      · exact .inl ⟨rfl, h2⟩
      · exact .inr ⟨raw, hr, h2⟩
    refine ⟨?_, ?_, fun hn => ?_⟩
    · rintro ⟨b, w, r, hb, hw, rfl⟩
      have hs := scanFirst_complete fl hb (scan_complete fl (r := r) hw TokText.beginArray (fun h => by cases h)) (by simp)
      rw [List.append_assoc, List.singleton_append, ← List.append_assoc] at hs
      rw [hs] at ht
      obtain ⟨es, he⟩ := told_calls fl ht
      simp only [act, Act.calls, Bool.false_eq_true, if_false, List.cons_append] at he
      rcases hv with ⟨rfl, _⟩ | ⟨raw, hr, rfl⟩
      · cases he
      · rw [he] at hr
        obtain ⟨xs, rfl⟩ := torn_array hr
        exact ⟨_, by rw [tidy]⟩
    · rintro ⟨b, w, r, hb, hw, rfl⟩
      have hs := scanFirst_complete fl hb (scan_complete fl (r := r) hw TokText.beginObject (fun h => by cases h)) (by simp)
      rw [List.append_assoc, List.singleton_append, ← List.append_assoc] at hs
      rw [hs] at ht
      obtain ⟨es, he⟩ := told_calls fl ht
      simp only [act, Act.calls, Bool.false_eq_true, if_false, List.cons_append] at he
      rcases hv with ⟨rfl, _⟩ | ⟨raw, hr, rfl⟩
      · cases he
      · rw [he] at hr
        obtain ⟨xs, rfl⟩ := torn_object hr
        exact ⟨_, by rw [tidy]⟩
    · have first : ∀ (tok : Token F) (c : Nat), (∀ t, TokText fl tok t → t = [c]) → tok ≠ .error → tok ≠ .eof →
          (scanFirst fl s).1 = tok → ∃ b w r, Bom b ∧ Ws w ∧ s = b ++ w ++ c :: r := by
        intro tok c hc g1 g2 he
        obtain ⟨b, s', hb, e1, hs⟩ := scanFirst_sound fl (tok := tok) (l := (scanFirst fl s).2) (by rw [← he]) g1
        obtain ⟨w, t, hw, e2, htt, _⟩ := scan_sound fl _ _ _ hs g1 g2
        rw [hc t htt] at e2
        exact ⟨b, w, (scanFirst fl s).2.pend, hb, hw, e1.trans (by rw [e2]; simp)⟩
      have he : evs = [] := by
        refine told_scalar fl (fun he => hn ?_) (fun he => hn ?_) ht
        · obtain ⟨b, w, r, hb, hw, hs⟩ := first .beginArray 0x5B (fun t h => by cases h; rfl) (by simp) (by simp) he
          exact ⟨b, w, r, hb, hw, .inl hs⟩
        · obtain ⟨b, w, r, hb, hw, hs⟩ := first .beginObject 0x7B (fun t h => by cases h; rfl) (by simp) (by simp) he
          exact ⟨b, w, r, hb, hw, .inr hs⟩
      subst he
      rcases hv with ⟨_, hv⟩ | ⟨raw, hr, _⟩
      · exact hv
      · generalize he : ([] : List (Event F)) = l at hr
        cases hr with
        | whole => cases raw <;> simp [events] at he
        | _ => simp at he

/-- `[`, ` {"a` and `"a` over a string -/
example (fl : Floats F) :
    readInto fl (.str [0x78]) [0x5B] = .ok (.arr [], some "parse_error.101") ∧
    readInto fl (.str [0x78]) [0x20, 0x7B, 0x22, 0x61] = .ok (.obj [], some "parse_error.101") ∧
    readInto fl (.str [0x78]) [0x22, 0x61] = .ok (.str [0x78], some "parse_error.101") := ⟨rfl, rfl, rfl⟩

/-- **C154** (what does not hold) It is not so that a variable is as it was when reading into it has failed: after
`[1,` it holds the array of 1. -/
theorem C154_kept_fails (fl : Floats F) :
    ¬ ∀ (old v : Json F) (s : Bytes) (k : String), readInto fl old s = .ok (v, some k) → v = old := by
  intro h
  have := h .null (.arr [.uint 1]) [0x5B, 0x31, 0x2C] _ rfl
  cases this

end Verif.Json
