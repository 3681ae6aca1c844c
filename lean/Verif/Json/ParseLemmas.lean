import Verif.Json.DomLemmas

/-!
# Lemmas about the whole of the reader
-/

namespace Verif.Json
open Spec

theorem afterV_nil (fl : Floats F) (n : Nat) (l : Lex) (evs : List (Event F)) :
    afterV fl n l [] evs = .done l evs := rfl

/-- the loop ends with the calls of one value -/
theorem run_done_iff (fl : Floats F) {N : Nat} {tok : Token F} {l l' : Lex} {evs : List (Event F)}
    (hN : 2 * l.pend.length + 1 < N) :
    run fl N ⟨tok, l, [], false, []⟩ = .done l' evs ↔ ∃ v, PV fl tok l v l' ∧ evs = events v := by
  constructor
  · intro h
    obtain ⟨v, l1, n', _, hv, ha⟩ := (run_sound fl l' evs N).1 tok l [] [] h
    rw [afterV_nil] at ha
    cases ha
    exact ⟨v, hv, rfl⟩
  · rintro ⟨v, hv, rfl⟩
    obtain ⟨k, hk⟩ := run_PV fl hv
    have h1 := hk N [] []
    rw [afterV_nil, List.nil_append] at h1
    have h2 : run fl N ⟨tok, l, [], false, []⟩ ≠ .running := by
      refine run_terminates fl N _ ?_
      simp only [Machine.weight]
      split
      · exact absurd ‹_› (by simp)
      · split <;> omega
    rw [← run_more fl N k _ h2, h1]

theorem scan_EF (fl : Floats F) (s : Bytes) : (scanToken fl (0xEF :: s)).1 = .error := by
  simp [scanToken, isSpace, isDigit]

theorem scan_length (fl : Floats F) {s : Bytes} {tok : Token F} {l : Lex}
    (h : scanToken fl s = (tok, l)) (h1 : tok ≠ .error) (h2 : tok ≠ .eof) :
    l.pend.length < s.length := by
  refine scan_shorter fl h ?_
  cases tok <;> first | rfl | exact absurd rfl h1 | exact absurd rfl h2

/-- the first token is that after the byte order mark, if there is one -/
theorem scanFirst_sound (fl : Floats F) {s : Bytes} {tok : Token F} {l : Lex}
    (h : scanFirst fl s = (tok, l)) (h1 : tok ≠ .error) :
    ∃ b s', Bom b ∧ s = b ++ s' ∧ scanToken fl s' = (tok, l) := by
  unfold scanFirst at h
  split at h
  · split at h
    · exact ⟨_, _, .inr rfl, rfl, h⟩
    · cases h; exact absurd rfl h1
  · exact ⟨[], _, .inl rfl, rfl, h⟩

theorem scanFirst_complete (fl : Floats F) {b s : Bytes} {tok : Token F} {l : Lex} (hb : Bom b)
    (h : scanToken fl s = (tok, l)) (h1 : tok ≠ .error) : scanFirst fl (b ++ s) = (tok, l) := by
  rcases hb with rfl | rfl
  · rw [List.nil_append]
    unfold scanFirst
    split
    · have := scan_EF fl ‹_›
      rw [h] at this
      exact absurd this h1
    · exact h
  · exact h

/-- the first token of a failed read of the mark -/
theorem scanFirst_pend (fl : Floats F) {s : Bytes} {tok : Token F} {l : Lex}
    (h : scanFirst fl s = (tok, l)) (h1 : tok ≠ .error) (h2 : tok ≠ .eof) :
    2 * l.pend.length + 1 < 2 * s.length + 2 := by
  obtain ⟨b, s', _, rfl, hs⟩ := scanFirst_sound fl h h1
  have := scan_length fl hs h1 h2
  simp only [List.length_append]; omega

theorem PV_first {fl : Floats F} {tok : Token F} {l l' : Lex} {v : Json F} (h : PV fl tok l v l') :
    tok ≠ .error ∧ tok ≠ .eof := h.value_tok.2

/-- the text of a value and what follows it -/
def Stands (fl : Floats F) (s : Bytes) (raw : Json F) (r : Bytes) : Prop :=
  ∃ b w t, Bom b ∧ Ws w ∧ Value fl t raw ∧ (IsNumber raw → Munch t r) ∧ s = b ++ w ++ t ++ r

/-- the bad tokens at the beginning end the loop at once -/
theorem run_bad (fl : Floats F) {tok : Token F} {l : Lex} {n : Nat}
    (h : tok = .error ∨ tok = .eof) : run fl (n + 1) ⟨tok, l, [], false, []⟩ = .fail .syntaxError := by
  rcases h with rfl | rfl <;> rfl

/-- the loop of the parser, from the beginning of the input -/
theorem first_iff (fl : Floats F) {s : Bytes} {l' : Lex} {evs : List (Event F)} :
    run fl (2 * s.length + 2) ⟨(scanFirst fl s).1, (scanFirst fl s).2, [], false, []⟩ =
        .done l' evs ↔
      ∃ raw, Stands fl s raw l'.pend ∧ l'.over = raw.isNum ∧ evs = events raw := by
  rcases hs : scanFirst fl s with ⟨tok, l⟩
  simp only
  constructor
  · intro h
    have hne : tok ≠ .error ∧ tok ≠ .eof := by
      constructor <;> rintro rfl
      · rw [run_bad fl (.inl rfl)] at h; cases h
      · rw [run_bad fl (.inr rfl)] at h; cases h
    obtain ⟨raw, hp, he⟩ := (run_done_iff fl (scanFirst_pend fl hs hne.1 hne.2)).1 h
    obtain ⟨b, s', hb, rfl, hs'⟩ := scanFirst_sound fl hs hne.1
    obtain ⟨w, t, hw, rfl, ht, ho, hm⟩ := scan_sound fl _ _ _ hs' hne.1 hne.2
    obtain ⟨t1, e1, hv, ho', hn⟩ := PV_sound fl hp t ht ho
    refine ⟨raw, ⟨b, w, t ++ t1, hb, hw, hv, fun hnum => ?_, by rw [e1]; simp⟩, ho', he⟩
    have h1 := isNum_iff.2 hnum
    rw [hn h1, List.append_nil]
    rw [hn h1, List.nil_append] at e1
    rw [← e1]
    refine hm ?_
    cases hp with
    | tok hv => rw [hv.isNum]; exact h1
    | _ => cases h1
  · rintro ⟨raw, ⟨b, w, t, hb, hw, hv, hm, rfl⟩, ho, rfl⟩
    obtain ⟨tok', l1, hsc, hp⟩ := PV_complete fl hv l'.pend (fun h => hm (isNum_iff.1 h))
    have hne := PV_first hp
    have h2 : scanFirst fl (b ++ w ++ t ++ l'.pend) = (tok', l1) := by
      have := scanFirst_complete fl hb (hsc w hw) hne.1
      simpa using this
    rw [hs] at h2
    cases h2
    refine (run_done_iff fl (scanFirst_pend fl hs hne.1 hne.2)).2 ⟨raw, ?_, rfl⟩
    rw [← ho] at hp
    exact hp

theorem first_ends (fl : Floats F) (s : Bytes) :
    run fl (2 * s.length + 2) ⟨(scanFirst fl s).1, (scanFirst fl s).2, [], false, []⟩ ≠ .running := by
  rcases hs : scanFirst fl s with ⟨tok, l⟩
  refine run_terminates fl _ _ ?_
  simp only [Machine.weight, Bool.false_eq_true, if_false]
  by_cases hb : tok.bad = true
  · rw [if_pos hb]; omega
  · rw [if_neg hb]
    refine scanFirst_pend fl hs ?_ ?_ <;> rintro rfl <;> exact hb rfl

/-- without `strict`, the reader stops after the value; a number takes one byte more -/
theorem extract_iff (fl : Floats F) {old v : Json F} {s rest : Bytes} :
    extract fl old s = .ok (v, rest) ↔
      ∃ raw r, Stands fl s raw r ∧ v = tidy raw ∧ rest = if raw.isNum then r.tail else r := by
  simp only [extract, parse]
  constructor
  · intro h
    split at h
    · cases h
    · cases h
    · cases h
    · rename_i l evs hr
      obtain ⟨raw, hst, ho, rfl⟩ := (first_iff fl).1 hr
      obtain ⟨d, hd, hroot⟩ := build_events raw old
      rw [hd] at h
      simp only [Bool.false_eq_true, if_false, Outcome.ok.injEq, Prod.mk.injEq] at h
      exact ⟨raw, l.pend, hst, by rw [← h.1, hroot], by rw [← h.2, ho]⟩
  · rintro ⟨raw, r, hst, rfl, rfl⟩
    have hr := (first_iff fl (l' := ⟨r, raw.isNum⟩)).2 ⟨raw, hst, rfl, rfl⟩
    rw [hr]
    obtain ⟨d, hd, hroot⟩ := build_events raw old
    simp only [hd, Bool.false_eq_true, if_false, hroot]

/-- with `strict`, only white space may follow, up to the end or a byte 0 -/
theorem parseAll_iff (fl : Floats F) {v : Json F} {s : Bytes} :
    parseAll fl s = .ok v ↔
      ∃ raw w e, Stands fl s raw (w ++ e) ∧ Ws w ∧ (e = [] ∨ ∃ r, e = 0 :: r) ∧ v = tidy raw := by
  simp only [parseAll, parse]
  constructor
  · intro h
    rcases hr : run fl (2 * s.length + 2) ⟨(scanFirst fl s).1, (scanFirst fl s).2, [], false, []⟩
      with ⟨l, evs⟩ | e | _
    · rw [hr] at h
      obtain ⟨raw, hst, ho, rfl⟩ := (first_iff fl).1 hr
      obtain ⟨d, hd, hroot⟩ := build_events raw .null
      simp only [hd, if_true] at h
      rcases hu : scanToken fl l.pend with ⟨tok, l1⟩
      rw [hu] at h
      by_cases ht : tok = .eof
      · subst ht
        simp only [Outcome.ok.injEq] at h
        obtain ⟨w, hw, ⟨e1, _⟩ | ⟨e1, _⟩⟩ := (scan_eof fl).1 hu
        · refine ⟨raw, w, [], ?_, hw, .inl rfl, by rw [← h, hroot]⟩
          rw [List.append_nil, ← e1]; exact hst
        · refine ⟨raw, w, 0 :: l1.pend, ?_, hw, .inr ⟨_, rfl⟩, by rw [← h, hroot]⟩
          rw [← e1]; exact hst
      · cases tok <;> first | exact absurd rfl ht | cases h
    · rw [hr] at h; cases e <;> cases h
    · rw [hr] at h; cases h
  · rintro ⟨raw, w, e, hst, hw, he, rfl⟩
    have hr := (first_iff fl (l' := ⟨w ++ e, raw.isNum⟩)).2 ⟨raw, hst, rfl, rfl⟩
    rw [hr]
    obtain ⟨d, hd, hroot⟩ := build_events raw .null
    have hu : ∃ l1, scanToken fl (w ++ e) = (.eof, l1) := by
      rcases he with rfl | ⟨r, rfl⟩
      · exact ⟨⟨[], false⟩, (scan_eof fl).2 ⟨w, hw, .inl ⟨by simp, rfl⟩⟩⟩
      · exact ⟨⟨r, false⟩, (scan_eof fl).2 ⟨w, hw, .inr ⟨rfl, rfl⟩⟩⟩
    obtain ⟨l1, hu⟩ := hu
    simp only [hd, if_true, hu, hroot]

/-- the reader ends, and fails only by the two exceptions -/
theorem parse_outcome (fl : Floats F) (strict : Bool) (old : Json F) (s : Bytes) :
    (∃ x, parse fl strict old s = .ok x) ∨ parse fl strict old s = .throws "parse_error.101" ∨
      parse fl strict old s = .throws "out_of_range.406" := by
  simp only [parse]
  rcases hr : run fl (2 * s.length + 2) ⟨(scanFirst fl s).1, (scanFirst fl s).2, [], false, []⟩
    with ⟨l, evs⟩ | e | _
  · obtain ⟨raw, hst, ho, rfl⟩ := (first_iff fl).1 hr
    obtain ⟨d, hd, hroot⟩ := build_events raw old
    simp only [hd]
    cases strict
    · exact .inl ⟨_, rfl⟩
    · simp only [if_true]
      cases (scanToken fl l.pend).1 <;> simp
  · cases e
    · exact .inr (.inl rfl)
    · exact .inr (.inr rfl)
  · exact absurd hr (first_ends fl s)

end Verif.Json
