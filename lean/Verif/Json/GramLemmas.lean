import Verif.Json.RunLemmas

/-!
# The parser and the grammar
-/

namespace Verif.Json
open Spec

/-- the values that are numbers -/
def Json.isNum : Json F → Bool
  | .int _ | .uint _ | .float _ => true
  | _ => false

theorem isNum_iff {v : Json F} : v.isNum = true ↔ IsNumber v := by
  cases v <;> simp [Json.isNum, IsNumber]

theorem TokVal.isNum {fl : Floats F} {tok : Token F} {v : Json F} (h : TokVal fl tok v) :
    tok.isNum = v.isNum := by cases h <;> rfl

theorem Ws.nil : Ws [] := fun _ h => by cases h

theorem Ws.append {w w' : Bytes} (h : Ws w) (h' : Ws w') : Ws (w ++ w') := by
  intro c hc
  rcases List.mem_append.1 hc with hc | hc
  · exact h c hc
  · exact h' c hc

theorem NotNumeric.ws {c : Nat} (h : c = 0x20 ∨ c = 0x09 ∨ c = 0x0A ∨ c = 0x0D) : NotNumeric c := by
  unfold NotNumeric Digit; omega

/-- white space and a byte that no number contains end every number -/
theorem munch_ws {t w r : Bytes} {c : Nat} (hw : Ws w) (hc : NotNumeric c) :
    Munch t (w ++ c :: r) := by
  rcases w with _ | ⟨d, w⟩
  · exact munch_of_notNumeric hc
  · exact munch_of_notNumeric (NotNumeric.ws (hw d (by simp)))

theorem munch_ws_end {t w : Bytes} (hw : Ws w) : Munch t w := by
  rcases w with _ | ⟨d, w⟩
  · exact munch_nil
  · exact munch_of_notNumeric (NotNumeric.ws (hw d (by simp)))

/-! ## Single tokens -/

theorem scan_text (fl : Floats F) {s : Bytes} {l : Lex} {tok : Token F} {t : Bytes}
    (hu : ∀ t', TokText fl tok t' → t' = t) (hn : tok.isNum = false) (h1 : tok ≠ .error)
    (h2 : tok ≠ .eof) (h : scanToken fl s = (tok, l)) :
    ∃ w, Ws w ∧ s = w ++ t ++ l.pend ∧ l.over = false := by
  obtain ⟨w, t', hw, e, ht, ho, _⟩ := scan_sound fl s tok l h h1 h2
  rw [hu t' ht] at e
  exact ⟨w, hw, e, ho.trans hn⟩

theorem scan_endArray (fl : Floats F) {s : Bytes} {l : Lex}
    (h : scanToken fl s = (.endArray, l)) :
    ∃ w, Ws w ∧ s = w ++ [0x5D] ++ l.pend ∧ l.over = false :=
  scan_text fl (fun t' h => by cases h; rfl) rfl (by simp) (by simp) h

theorem scan_endObject (fl : Floats F) {s : Bytes} {l : Lex}
    (h : scanToken fl s = (.endObject, l)) :
    ∃ w, Ws w ∧ s = w ++ [0x7D] ++ l.pend ∧ l.over = false :=
  scan_text fl (fun t' h => by cases h; rfl) rfl (by simp) (by simp) h

theorem scan_valueSeparator (fl : Floats F) {s : Bytes} {l : Lex}
    (h : scanToken fl s = (.valueSeparator, l)) :
    ∃ w, Ws w ∧ s = w ++ [0x2C] ++ l.pend ∧ l.over = false :=
  scan_text fl (fun t' h => by cases h; rfl) rfl (by simp) (by simp) h

theorem scan_nameSeparator (fl : Floats F) {s : Bytes} {l : Lex}
    (h : scanToken fl s = (.nameSeparator, l)) :
    ∃ w, Ws w ∧ s = w ++ [0x3A] ++ l.pend ∧ l.over = false :=
  scan_text fl (fun t' h => by cases h; rfl) rfl (by simp) (by simp) h

theorem scan_str (fl : Floats F) {s k : Bytes} {l : Lex}
    (h : scanToken fl s = (.str k, l)) :
    ∃ w t, Ws w ∧ StrChars t k ∧ s = w ++ (0x22 :: (t ++ [0x22])) ++ l.pend := by
  obtain ⟨w, t', hw, e, ht, _⟩ := scan_sound fl s _ l h (by simp) (by simp)
  cases ht with
  | str ht => exact ⟨w, _, hw, ht, e⟩

/-! ## What the parser accepts is in the grammar -/

theorem tokVal_value {fl : Floats F} {tok : Token F} {v : Json F} {t : Bytes}
    (h : TokVal fl tok v) (ht : TokText fl tok t) : Value fl t v := by
  cases h with
  | null => cases ht; exact .null
  | true => cases ht; exact .true
  | false => cases ht; exact .false
  | int => cases ht with | int h1 h2 => exact .num (.int h1 h2)
  | uint => cases ht with | uint h1 h2 => exact .num (.uint h1 h2)
  | float hx => cases ht with | float h1 h2 h3 h4 h5 => exact .num (.float h1 h2 h3 h4 h5 hx)
  | str => cases ht with | str h1 => exact .str h1

mutual
theorem PV_sound (fl : Floats F) {tok : Token F} {l l' : Lex} {v : Json F} (h : PV fl tok l v l')
    (t0 : Bytes) (ht : TokText fl tok t0) (ho : l.over = tok.isNum) :
    ∃ t1, l.pend = t1 ++ l'.pend ∧ Value fl (t0 ++ t1) v ∧ l'.over = v.isNum ∧
      (v.isNum = true → t1 = []) :=
  match h with
  | .tok h => ⟨[], rfl, by rw [List.append_nil]; exact tokVal_value h ht, by rw [ho, h.isNum],
      fun _ => rfl⟩
  | .emptyArr h1 => by
      obtain ⟨w, hw, e, ho'⟩ := scan_endArray fl h1
      cases ht
      exact ⟨w ++ [0x5D], e, .emptyArr hw, ho', fun h => by cases h⟩
  | .emptyObj h1 => by
      obtain ⟨w, hw, e, ho'⟩ := scan_endObject fl h1
      cases ht
      exact ⟨w ++ [0x7D], e, .emptyObj hw, ho', fun h => by cases h⟩
  | .arr h1 h2 => by
      obtain ⟨w, t', hw, e, ht', ho', _⟩ := scan_sound fl _ _ _ h1 h2.value_tok.2.1 h2.value_tok.2.2
      obtain ⟨t1, e1, ho1, hE⟩ := PE_sound fl h2 t' ht' ho'
      cases ht
      refine ⟨w ++ t' ++ t1 ++ [0x5D], by rw [e, e1]; simp, ?_, ho1, fun h => by cases h⟩
      exact .arr (hE w hw)
  | .obj h1 => by
      obtain ⟨t, e, ho1, hM⟩ := PM_sound fl h1
      cases ht
      exact ⟨t ++ [0x7D], by rw [e]; simp, .obj hM, ho1, fun h => by cases h⟩
theorem PE_sound (fl : Floats F) {tok : Token F} {l l' : Lex} {vs : List (Json F)}
    (h : PE fl tok l vs l') (t0 : Bytes) (ht : TokText fl tok t0) (ho : l.over = tok.isNum) :
    ∃ t1, l.pend = t1 ++ 0x5D :: l'.pend ∧ l'.over = false ∧
      ∀ w, Ws w → Elements fl (w ++ t0 ++ t1) vs :=
  match h with
  | .one h1 h2 => by
      obtain ⟨t1, e, hv, _, _⟩ := PV_sound fl h1 t0 ht ho
      obtain ⟨w', hw', e', ho'⟩ := scan_endArray fl h2
      refine ⟨t1 ++ w', by rw [e, e']; simp, ho', fun w hw => ?_⟩
      have := Elements.one hw hv hw'
      simpa using this
  | .cons h1 h2 h3 h4 => by
      obtain ⟨t1, e, hv, _, _⟩ := PV_sound fl h1 t0 ht ho
      obtain ⟨w', hw', e', ho'⟩ := scan_valueSeparator fl h2
      obtain ⟨w2, t', hw2, e2, ht', ho2, _⟩ :=
        scan_sound fl _ _ _ h3 h4.value_tok.2.1 h4.value_tok.2.2
      obtain ⟨t3, e3, ho3, hE⟩ := PE_sound fl h4 t' ht' ho2
      refine ⟨t1 ++ w' ++ 0x2C :: (w2 ++ t' ++ t3), by rw [e, e', e2, e3]; simp, ho3,
        fun w hw => ?_⟩
      have := Elements.cons hw hv hw' (hE w2 hw2)
      simpa using this
theorem PM_sound (fl : Floats F) {l l' : Lex} {ms : List (Bytes × Json F)} (h : PM fl l ms l') :
    ∃ t, l.pend = t ++ 0x7D :: l'.pend ∧ l'.over = false ∧ Members fl t ms :=
  match h with
  | .one h1 h2 h3 h4 h5 => by
      obtain ⟨w, k, hw, hk, e1⟩ := scan_str fl h1
      obtain ⟨w1, hw1, e2, _⟩ := scan_nameSeparator fl h2
      obtain ⟨w2, t, hw2, e3, ht, ho, _⟩ := scan_sound fl _ _ _ h3 h4.value_tok.2.1 h4.value_tok.2.2
      obtain ⟨t1, e4, hv, _, _⟩ := PV_sound fl h4 t ht ho
      obtain ⟨w', hw', e5, ho5⟩ := scan_endObject fl h5
      refine ⟨_, ?_, ho5, .one hw hk hw1 hw2 hv hw'⟩
      rw [e1, e2, e3, e4, e5]; simp
  | .cons h1 h2 h3 h4 h5 h6 => by
      obtain ⟨w, k, hw, hk, e1⟩ := scan_str fl h1
      obtain ⟨w1, hw1, e2, _⟩ := scan_nameSeparator fl h2
      obtain ⟨w2, t, hw2, e3, ht, ho, _⟩ := scan_sound fl _ _ _ h3 h4.value_tok.2.1 h4.value_tok.2.2
      obtain ⟨t1, e4, hv, _, _⟩ := PV_sound fl h4 t ht ho
      obtain ⟨w', hw', e5, ho5⟩ := scan_valueSeparator fl h5
      obtain ⟨ts, e6, ho6, hM⟩ := PM_sound fl h6
      refine ⟨_, ?_, ho6, .cons hw hk hw1 hw2 hv hw' hM⟩
      rw [e1, e2, e3, e4, e5, e6]; simp
end

/-! ## The parser accepts the grammar -/

theorem number_isNum {fl : Floats F} {t : Bytes} {v : Json F} (h : Number fl t v) :
    v.isNum = true := by cases h <;> rfl

theorem number_tok {fl : Floats F} {t : Bytes} {v : Json F} (h : Number fl t v) :
    ∃ tok, TokText fl tok t ∧ TokVal fl tok v := by
  cases h with
  | uint h1 h2 => exact ⟨_, .uint h1 h2, .uint⟩
  | int h1 h2 => exact ⟨_, .int h1 h2, .int⟩
  | float h1 h2 h3 h4 h5 h6 => exact ⟨_, .float h1 h2 h3 h4 h5, .float h6⟩

theorem scan_single (fl : Floats F) {tok : Token F} {w t r : Bytes} (hw : Ws w)
    (ht : TokText fl tok t) (hn : tok.isNum = false) :
    scanToken fl (w ++ t ++ r) = (tok, ⟨r, false⟩) := by
  have := scan_complete fl (r := r) hw ht (fun h => by rw [hn] at h; cases h)
  rwa [hn] at this

mutual
theorem PV_complete (fl : Floats F) {t : Bytes} {v : Json F} (h : Value fl t v) (rest : Bytes)
    (hm : v.isNum = true → Munch t rest) :
    ∃ tok l1, (∀ w, Ws w → scanToken fl (w ++ t ++ rest) = (tok, l1)) ∧
      PV fl tok l1 v ⟨rest, v.isNum⟩ :=
  match h with
  | .null => ⟨_, _, fun _ hw => scan_single fl hw .litNull rfl, .tok .null⟩
  | .true => ⟨_, _, fun _ hw => scan_single fl hw .litTrue rfl, .tok .true⟩
  | .false => ⟨_, _, fun _ hw => scan_single fl hw .litFalse rfl, .tok .false⟩
  | .str h1 => ⟨_, _, fun _ hw => scan_single fl hw (.str h1) rfl, .tok .str⟩
  | .num h1 => by
      obtain ⟨tok, ht, hv⟩ := number_tok h1
      refine ⟨tok, ⟨rest, v.isNum⟩, fun w hw => ?_, .tok hv⟩
      rw [← hv.isNum]
      exact scan_complete fl hw ht (fun _ => hm (number_isNum h1))
  | .emptyArr (w := w') h1 => by
      refine ⟨.beginArray, ⟨w' ++ [0x5D] ++ rest, false⟩, fun w hw => ?_, .emptyArr ?_⟩
      · have := scan_single fl (r := w' ++ [0x5D] ++ rest) hw .beginArray rfl
        simpa using this
      · exact scan_single fl h1 .endArray rfl
  | .emptyObj (w := w') h1 => by
      refine ⟨.beginObject, ⟨w' ++ [0x7D] ++ rest, false⟩, fun w hw => ?_, .emptyObj ?_⟩
      · have := scan_single fl (r := w' ++ [0x7D] ++ rest) hw .beginObject rfl
        simpa using this
      · exact scan_single fl h1 .endObject rfl
  | .arr (t := t') h1 => by
      obtain ⟨tok, l1, hs, hp⟩ := PE_complete fl h1 rest
      refine ⟨.beginArray, ⟨t' ++ 0x5D :: rest, false⟩, fun w hw => ?_, .arr (hs [] Ws.nil) hp⟩
      have := scan_single fl (r := t' ++ 0x5D :: rest) hw .beginArray rfl
      simpa using this
  | .obj (t := t') h1 => by
      refine ⟨.beginObject, ⟨t' ++ 0x7D :: rest, false⟩, fun w hw => ?_,
        .obj (PM_complete fl h1 rest _ rfl)⟩
      have := scan_single fl (r := t' ++ 0x7D :: rest) hw .beginObject rfl
      simpa using this
theorem PE_complete (fl : Floats F) {t : Bytes} {vs : List (Json F)} (h : Elements fl t vs)
    (rest : Bytes) :
    ∃ tok l1, (∀ w, Ws w → scanToken fl (w ++ t ++ 0x5D :: rest) = (tok, l1)) ∧
      PE fl tok l1 vs ⟨rest, false⟩ :=
  match h with
  | .one (w := wa) (t := ta) (w' := wb) h1 h2 h3 => by
      obtain ⟨tok, l1, hs, hp⟩ := PV_complete fl h2 (wb ++ 0x5D :: rest)
        (fun _ => munch_ws h3 (by unfold NotNumeric Digit; omega))
      refine ⟨tok, l1, fun w hw => ?_, .one hp ?_⟩
      · have := hs (w ++ wa) (Ws.append hw h1)
        simpa using this
      · have := scan_single fl (r := rest) h3 .endArray rfl
        simpa using this
  | .cons (w := wa) (t := ta) (w' := wb) (ts := ts) h1 h2 h3 h4 => by
      obtain ⟨tok, l1, hs, hp⟩ := PV_complete fl h2 (wb ++ 0x2C :: (ts ++ 0x5D :: rest))
        (fun _ => munch_ws h3 (by unfold NotNumeric Digit; omega))
      obtain ⟨tok', l3, hs', hp'⟩ := PE_complete fl h4 rest
      refine ⟨tok, l1, fun w hw => ?_, .cons (l2 := ⟨ts ++ 0x5D :: rest, false⟩) hp ?_
        (hs' [] Ws.nil) hp'⟩
      · have := hs (w ++ wa) (Ws.append hw h1)
        simpa using this
      · have := scan_single fl (r := ts ++ 0x5D :: rest) h3 .valueSeparator rfl
        simpa using this
theorem PM_complete (fl : Floats F) {t : Bytes} {ms : List (Bytes × Json F)}
    (h : Members fl t ms) (rest : Bytes) (l : Lex) (hl : l.pend = t ++ 0x7D :: rest) :
    PM fl l ms ⟨rest, false⟩ :=
  match h with
  | .one (w := w) (k := k) (w1 := w1) (w2 := w2) (t := t') (w' := w') h1 h2 h3 h4 h5 h6 => by
      obtain ⟨tok, l3, hs, hp⟩ := PV_complete fl h5 (w' ++ 0x7D :: rest)
        (fun _ => munch_ws h6 (by unfold NotNumeric Digit; omega))
      refine .one (l1 := ⟨w1 ++ 0x3A :: (w2 ++ t' ++ w') ++ 0x7D :: rest, false⟩)
        (l2 := ⟨w2 ++ t' ++ w' ++ 0x7D :: rest, false⟩) ?_ ?_ (by
          have := hs w2 h4; simpa using this) hp ?_
      · rw [hl]
        have := scan_single fl (r := w1 ++ 0x3A :: (w2 ++ t' ++ w') ++ 0x7D :: rest) h1
          (.str h2) rfl
        simpa using this
      · have := scan_single fl (r := w2 ++ t' ++ w' ++ 0x7D :: rest) h3 .nameSeparator rfl
        simpa using this
      · have := scan_single fl (r := rest) h6 .endObject rfl
        simpa using this
  | .cons (w := w) (k := k) (w1 := w1) (w2 := w2) (t := t') (w' := w') (ts := ts)
      h1 h2 h3 h4 h5 h6 h7 => by
      obtain ⟨tok, l3, hs, hp⟩ := PV_complete fl h5 (w' ++ 0x2C :: (ts ++ 0x7D :: rest))
        (fun _ => munch_ws h6 (by unfold NotNumeric Digit; omega))
      refine .cons (l1 := ⟨w1 ++ 0x3A :: (w2 ++ t' ++ w' ++ 0x2C :: ts) ++ 0x7D :: rest, false⟩)
        (l2 := ⟨w2 ++ t' ++ w' ++ 0x2C :: ts ++ 0x7D :: rest, false⟩) ?_ ?_ (by
          have := hs w2 h4; simpa using this) hp ?_
          (PM_complete fl h7 rest ⟨ts ++ 0x7D :: rest, false⟩ rfl)
      · rw [hl]
        have := scan_single fl (r := w1 ++ 0x3A :: (w2 ++ t' ++ w' ++ 0x2C :: ts) ++ 0x7D :: rest)
          h1 (.str h2) rfl
        simpa using this
      · have := scan_single fl (r := w2 ++ t' ++ w' ++ 0x2C :: ts ++ 0x7D :: rest) h3
          .nameSeparator rfl
        simpa using this
      · have := scan_single fl (r := ts ++ 0x7D :: rest) h6 .valueSeparator rfl
        simpa using this
end

end Verif.Json
