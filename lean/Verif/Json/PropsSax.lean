import Verif.Json.SaxLemmas
import Verif.Json.Props

/-!
# Reading JSON with a consumer of events: the properties
-/

namespace Verif.Json
open Spec

/-- `s` is a JSON text for the value `raw` (names as they stand, repeated names included), as
`C110_reads_iff` has it: possibly after a byte order mark, up to the end or to a byte 0 -/
def IsText (fl : Floats F) (s : Bytes) (raw : Json F) : Prop :=
  ∃ b w t w' e, Bom b ∧ Ws w ∧ Value fl t raw ∧ Ws w' ∧ (e = [] ∨ ∃ r, e = 0 :: r) ∧ s = b ++ w ++ t ++ w' ++ e

theorem parseAll_text (fl : Floats F) {s : Bytes} {v : Json F} :
    parseAll fl s = .ok v ↔ ∃ raw, IsText fl s raw ∧ v = tidy raw := by
  rw [C110_reads_iff]
  constructor
  · rintro ⟨b, w, t, w', e, raw, hb, hw, hv, hw', he, hs, hr⟩
    exact ⟨raw, ⟨b, w, t, w', e, hb, hw, hv, hw', he, hs⟩, hr⟩
  · rintro ⟨raw, ⟨b, w, t, w', e, hb, hw, hv, hw', he, hs⟩, hr⟩
    exact ⟨b, w, t, w', e, raw, hb, hw, hv, hw', he, hs, hr⟩

/-- what is told about a JSON text -/
theorem told_text (fl : Floats F) {s : Bytes} {raw : Json F} (h : IsText fl s raw) :
    ∃ l, told fl (2 * s.length + 2) ⟨(scanFirst fl s).1, (scanFirst fl s).2, [], false⟩ = .done (events raw) l ∧
      (scanToken fl l.pend).1 = .eof := by
  obtain ⟨b, w, t, w', e, hb, hw, hv, hw', he, rfl⟩ := h
  have hst : Stands fl (b ++ w ++ t ++ w' ++ e) raw (w' ++ e) := by
    refine ⟨b, w, t, hb, hw, hv, fun _ => ?_, by simp⟩
    rcases he with rfl | ⟨r, rfl⟩
    · rw [List.append_nil]; exact munch_ws_end hw'
    · exact munch_ws hw' (by unfold NotNumeric Digit; omega)
  have hr := (first_iff fl (l' := ⟨w' ++ e, raw.isNum⟩)).2 ⟨raw, hst, rfl, rfl⟩
  generalize b ++ w ++ t ++ w' ++ e = s at hr ⊢
  have hr' := run_told fl (2 * s.length + 2) ⟨(scanFirst fl s).1, (scanFirst fl s).2, [], false⟩ []
  simp only [Spin.with] at hr'
  rw [hr] at hr'
  have hu : (scanToken fl (w' ++ e)).1 = .eof := by
    rcases he with rfl | ⟨r, rfl⟩
    · rw [show scanToken fl (w' ++ []) = (.eof, ⟨[], false⟩) from (scan_eof fl).2 ⟨w', hw', .inl ⟨by simp, rfl⟩⟩]
    · rw [show scanToken fl (w' ++ 0 :: r) = (.eof, ⟨r, false⟩) from (scan_eof fl).2 ⟨w', hw', .inr ⟨rfl, rfl⟩⟩]
  cases ht : told fl (2 * s.length + 2) ⟨(scanFirst fl s).1, (scanFirst fl s).2, [], false⟩ with
  | running => rw [ht] at hr'; cases hr'
  | error es e => rw [ht] at hr'; cases hr'
  | done es l =>
    rw [ht] at hr'
    simp only [RunResult.done.injEq, List.nil_append] at hr'
    obtain ⟨rfl, rfl⟩ := hr'
    exact ⟨_, rfl, hu⟩

/-- what is told about any other text -/
theorem told_other (fl : Floats F) {s : Bytes} (h : ¬ ∃ raw, IsText fl s raw) :
    ∃ evs e, Begins evs ∧ parseAll fl s = .throws (ParseError.kind e) ∧
      ((told fl (2 * s.length + 2) ⟨(scanFirst fl s).1, (scanFirst fl s).2, [], false⟩ = .error evs e) ∨
        (e = .syntaxError ∧ ∃ l, (scanToken fl l.pend).1 ≠ .eof ∧
          told fl (2 * s.length + 2) ⟨(scanFirst fl s).1, (scanFirst fl s).2, [], false⟩ = .done evs l)) := by
  have hn : ∀ v, parseAll fl s ≠ .ok v := by
    intro v hv
    obtain ⟨raw, hr, _⟩ := (parseAll_text fl).1 hv
    exact h ⟨raw, hr⟩
  have hrun := run_told fl (2 * s.length + 2) ⟨(scanFirst fl s).1, (scanFirst fl s).2, [], false⟩ []
  simp only [Spin.with] at hrun
  rcases told_first fl s with ⟨raw, l, ht, hst⟩ | ⟨evs, e, ht, hb⟩
  · rw [ht] at hrun
    simp only [List.nil_append] at hrun
    obtain ⟨d, hd, _⟩ := build_events raw .null
    have hp : parseAll fl s = match (match (scanToken fl l.pend).1 with
        | .eof => (.ok (d.root, (scanToken fl l.pend).2.pend) : Outcome (Json F × Bytes))
        | _ => .throws "parse_error.101") with
      | .ok (v, _) => .ok v
      | .assertFail => .assertFail
      | .outOfRange => .outOfRange
      | .throws k => .throws k
      | .ub => .ub
      | .diverges => .diverges := by
      simp only [parseAll, parse, hrun, hd, if_true]
      cases (scanToken fl l.pend).1 <;> rfl
    have hne : (scanToken fl l.pend).1 ≠ .eof := by
      intro he
      rw [he] at hp
      exact hn _ hp
    refine ⟨events raw, .syntaxError, ⟨raw, [], by simp⟩, ?_, .inr ⟨rfl, l, hne, ht⟩⟩
    rw [hp]
    cases hc : (scanToken fl l.pend).1 <;> first | exact absurd hc hne | rfl
  · refine ⟨evs, e, hb, ?_, .inl ht⟩
    rw [ht] at hrun
    simp only [parseAll, parse, hrun]
    cases e <;> rfl

/-- **C149** A consumer of events is told, about a JSON text, exactly the value that stands there, in the order of
the text: null, truth values, numbers, strings, the beginnings and ends of arrays and objects, and
the keys, repeated ones included.  As soon as it says "enough", it is told nothing more, and `sax_parse`
returns false; otherwise it returns true. -/
theorem C149_events (fl : Floats F) (s : Bytes) (raw : Json F) (h : IsText fl s raw) (H : Sax F σ) (st : σ) :
    H.parse fl true s st = deliver H (events raw) st := by
  obtain ⟨l, ht, hu⟩ := told_text fl h
  rw [Sax.parse, Sax.internal, (loop_eq fl H _ _ st).1 _ _ ht, Outcome.bind_assoc']
  cases hd : deliver H (events raw) st <;> try rfl
  rename_i r
  obtain ⟨b, st'⟩ := r
  simp only [Outcome.bind_ok]
  cases b
  · rfl
  · simp only [if_true, Outcome.pure_eq, Outcome.bind_ok, hu]

/-- a consumer that writes everything down, and has enough after `n` calls -/
def scribe (F : Type) (n : Nat) : Sax F (List (Event F) × List ParseError) where
  on e st := .ok (decide (st.1.length + 1 < n), (st.1 ++ [e], st.2))
  error e st := .ok (st.1, st.2 ++ [e])

/-- `[1,{"a":[]}]`: all of it, and the first three calls of it -/
example (fl : Floats F) :
    IsText fl [0x5B, 0x31, 0x2C, 0x7B, 0x22, 0x61, 0x22, 0x3A, 0x5B, 0x5D, 0x7D, 0x5D]
        (.arr [.uint 1, .obj [([0x61], .arr [])]]) ∧
      (scribe F 100).parse fl true [0x5B, 0x31, 0x2C, 0x7B, 0x22, 0x61, 0x22, 0x3A, 0x5B, 0x5D, 0x7D, 0x5D] ([], []) =
        .ok (true, [.startArray, .uint 1, .startObject, .key [0x61], .startArray, .endArray, .endObject, .endArray], []) ∧
      (scribe F 3).parse fl true [0x5B, 0x31, 0x2C, 0x7B, 0x22, 0x61, 0x22, 0x3A, 0x5B, 0x5D, 0x7D, 0x5D] ([], []) =
        .ok (false, [.startArray, .uint 1, .startObject], []) := by
  have h : parseAll fl [0x5B, 0x31, 0x2C, 0x7B, 0x22, 0x61, 0x22, 0x3A, 0x5B, 0x5D, 0x7D, 0x5D] =
      .ok (.arr [.uint 1, .obj [([0x61], .arr [])]]) := by rfl
  have h100 : (scribe F 100).parse fl true [0x5B, 0x31, 0x2C, 0x7B, 0x22, 0x61, 0x22, 0x3A, 0x5B, 0x5D, 0x7D, 0x5D] ([], []) =
        .ok (true, [.startArray, .uint 1, .startObject, .key [0x61], .startArray, .endArray, .endObject, .endArray], []) := by
    rfl
  refine ⟨?_, h100, by rfl⟩
  have he : Elements fl [0x31, 0x2C, 0x7B, 0x22, 0x61, 0x22, 0x3A, 0x5B, 0x5D, 0x7D] [.uint 1, .obj [([0x61], .arr [])]] := by
    have hk : StrChars [0x61] [0x61] := by
      have := StrChars.cons (StrChar.plain (c := 0x61) (.inl (by decide)) (by decide) (by decide) (by decide)) .nil
      simpa [utf8] using this
    have h1 : Value fl [0x31] (.uint 1) := .num (.uint (i := [0x31]) (.inr ⟨⟨by simp, by simp [Digit]⟩, by simp⟩) (by decide))
    have h2 : Value fl [0x5B, 0x5D] (.arr []) := .emptyArr (w := []) Ws.nil
    have h3 := Value.obj (Members.one Ws.nil hk Ws.nil Ws.nil h2 Ws.nil)
    exact Elements.cons Ws.nil h1 Ws.nil (.one Ws.nil h3 Ws.nil)
  exact ⟨[], [], _, [], [], .inl rfl, Ws.nil, .arr he, Ws.nil, .inl rfl, rfl⟩

/-- **C149** About any other text, a consumer is told the beginning of some value – no text makes the calls go
astray – and then once, unless it has had enough, of the error: the one that `parse` throws.  What it
is told does not depend on the consumer; `sax_parse` returns false. -/
theorem C149_errors (fl : Floats F) (s : Bytes) (h : ¬ ∃ raw, IsText fl s raw) :
    ∃ evs e, (∃ w more, evs ++ more = events w) ∧ parseAll fl s = .throws (ParseError.kind e) ∧
      ∀ {σ : Type} (H : Sax F σ) (st : σ), H.parse fl true s st =
        (deliver H evs st >>= fun r =>
          if r.1 then H.error e r.2 >>= fun st => .ok (false, st) else .ok (false, r.2)) := by
  obtain ⟨evs, e, hb, hp, ht | ⟨rfl, l, hu, ht⟩⟩ := told_other fl h
  · refine ⟨evs, e, hb, hp, fun H st => ?_⟩
    rw [Sax.parse, Sax.internal, (loop_eq fl H _ _ st).2 _ _ ht, Outcome.bind_assoc']
    congr 1
    funext r
    obtain ⟨b, st'⟩ := r
    cases b
    · rfl
    · simp only [if_true]
      rw [Outcome.bind_assoc']
      rfl
  · refine ⟨evs, .syntaxError, hb, hp, fun H st => ?_⟩
    rw [Sax.parse, Sax.internal, (loop_eq fl H _ _ st).1 _ _ ht, Outcome.bind_assoc']
    congr 1
    funext r
    obtain ⟨b, st'⟩ := r
    cases b
    · rfl
    · simp only [if_true, Outcome.pure_eq, Outcome.bind_ok]

/-- `{"a":1]`, and `[1] 2`: the error comes after the end -/
example (fl : Floats F) :
    (¬ ∃ raw, IsText fl [0x7B, 0x22, 0x61, 0x22, 0x3A, 0x31, 0x5D] raw) ∧
      (scribe F 100).parse fl true [0x7B, 0x22, 0x61, 0x22, 0x3A, 0x31, 0x5D] ([], []) =
        .ok (false, [.startObject, .key [0x61], .uint 1], [.syntaxError]) ∧
      (scribe F 100).parse fl true [0x5B, 0x31, 0x5D, 0x20, 0x32] ([], []) =
        .ok (false, [.startArray, .uint 1, .endArray], [.syntaxError]) := by
  refine ⟨?_, by rfl, by rfl⟩
  rintro ⟨raw, hr⟩
  have h1 := (parseAll_text fl).2 ⟨raw, hr, rfl⟩
  have h2 : parseAll fl [0x7B, 0x22, 0x61, 0x22, 0x3A, 0x31, 0x5D] = .throws "parse_error.101" := by rfl
  rw [h1] at h2
  cases h2

theorem deliver_all (H : Sax F σ) (f : Event F → σ → σ) (hf : ∀ e st, H.on e st = .ok (true, f e st)) :
    ∀ (es : List (Event F)) (st : σ), ∃ st', deliver H es st = .ok (true, st')
  | [], st => ⟨st, rfl⟩
  | e :: es, st => by
    obtain ⟨st', h⟩ := deliver_all H f hf es (f e st)
    exact ⟨st', by rw [deliver, hf]; simpa using h⟩

/-- **C149** `accept` answers true exactly for the texts that `parse` reads, the JSON texts, and false for all
others; it never throws, and never fails to answer. -/
theorem C149_accept_iff (fl : Floats F) (s : Bytes) :
    (accept fl s = .ok true ↔ ∃ raw, IsText fl s raw) ∧
      (accept fl s = .ok false ↔ ∃ k, parseAll fl s = .throws k) := by
  by_cases h : ∃ raw, IsText fl s raw
  · obtain ⟨raw, hr⟩ := h
    obtain ⟨st', hd⟩ := deliver_all (acceptor : Sax F Unit) (fun _ st => st) (fun _ _ => rfl) (events raw) ()
    have ha : accept fl s = .ok true := by
      rw [accept, C149_events fl s raw hr, hd]; rfl
    refine ⟨⟨fun _ => ⟨raw, hr⟩, fun _ => ha⟩, ⟨fun h => ?_, ?_⟩⟩
    · rw [ha] at h; cases h
    · rintro ⟨k, hk⟩
      rw [(parseAll_text fl).2 ⟨raw, hr, rfl⟩] at hk
      cases hk
  · obtain ⟨evs, e, _, hp, hH⟩ := C149_errors fl s h
    obtain ⟨st', hd⟩ := deliver_all (acceptor : Sax F Unit) (fun _ st => st) (fun _ _ => rfl) evs ()
    have ha : accept fl s = .ok false := by
      rw [accept, hH, hd]; rfl
    refine ⟨⟨fun h' => ?_, fun h' => absurd h' h⟩, ⟨fun _ => ⟨_, hp⟩, fun _ => ha⟩⟩
    rw [ha] at h'; cases h'

/-- `[true]` and `[true` -/
example (fl : Floats F) : accept fl [0x5B, 0x74, 0x72, 0x75, 0x65, 0x5D] = .ok true ∧
    accept fl [0x5B, 0x74, 0x72, 0x75, 0x65] = .ok false := ⟨by rfl, by rfl⟩

theorem deliver_builder (ex : Bool) : ∀ (es : List (Event F)) (d d' : Dom F), d.onAll es = some d' →
    deliver (builder ex) es (d, false) = .ok (true, (d', false))
  | [], d, d', h => by cases h; rfl
  | e :: es, d, d', h => by
    rw [Dom.onAll] at h
    cases he : d.on e with
    | none => rw [he] at h; cases h
    | some d1 =>
      rw [he] at h
      rw [deliver]
      simp only [builder, he, Outcome.bind_ok, if_true]
      exact deliver_builder ex es d1 d' h

theorem onAll_left : ∀ (es es' : List (Event F)) (d d' : Dom F), d.onAll (es ++ es') = some d' →
    ∃ d1, d.onAll es = some d1
  | [], _, d, _, _ => ⟨d, rfl⟩
  | e :: es, es', d, d', h => by
    rw [List.cons_append, Dom.onAll] at h
    rw [Dom.onAll]
    cases he : d.on e with
    | none => rw [he] at h; cases h
    | some d1 => rw [he] at h; exact onAll_left es es' d1 d' h

/-- **C149** `parse` that is asked not to throw gives the value for the texts it would read, and a discarded value for
those it would throw at; it never throws.  Asked to throw, it is the `parse` of C110. -/
theorem C149_quiet (fl : Floats F) (s : Bytes) :
    (∀ v, parseEx fl false s = .ok (some v) ↔ parseAll fl s = .ok v) ∧
      (parseEx fl false s = .ok none ↔ ∃ k, parseAll fl s = .throws k) ∧
      (∀ v, parseEx fl true s = .ok (some v) ↔ parseAll fl s = .ok v) ∧
      (∀ k, parseEx fl true s = .throws k ↔ parseAll fl s = .throws k) := by
  by_cases h : ∃ raw, IsText fl s raw
  · obtain ⟨raw, hr⟩ := h
    obtain ⟨d, hd, hroot⟩ := build_events raw .null
    have he : ∀ ex, parseEx fl ex s = .ok (some (tidy raw)) := by
      intro ex
      rw [parseEx, C149_events fl s raw hr, deliver_builder ex _ _ _ hd, ← hroot]; rfl
    rw [he, he, (parseAll_text fl).2 ⟨raw, hr, rfl⟩]
    refine ⟨fun v => ?_, ?_, fun v => ?_, fun k => ?_⟩ <;> simp
  · obtain ⟨evs, e, ⟨w, more, hw⟩, hp, hH⟩ := C149_errors fl s h
    obtain ⟨d, hd, _⟩ := build_events w .null
    rw [← hw] at hd
    obtain ⟨d1, hd1⟩ := onAll_left _ _ _ _ hd
    have h1 : parseEx fl false s = .ok none := by
      rw [parseEx, hH, deliver_builder false _ _ _ hd1]; rfl
    have h2 : parseEx fl true s = .throws e.kind := by
      rw [parseEx, hH, deliver_builder true _ _ _ hd1]; rfl
    rw [h1, h2, hp]
    refine ⟨fun v => ?_, ?_, fun v => ?_, fun k => ?_⟩ <;> simp

/-- `[1]` and `[1` -/
example (fl : Floats F) : parseEx fl false [0x5B, 0x31, 0x5D] = .ok (some (.arr [.uint 1])) ∧
    parseEx fl false [0x5B, 0x31] = .ok none ∧
    parseEx fl true [0x5B, 0x31] = .throws "parse_error.101" := ⟨by rfl, by rfl, by rfl⟩

end Verif.Json
