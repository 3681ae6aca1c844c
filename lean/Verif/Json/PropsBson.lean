import Verif.Json.BsonWrite
import Verif.Json.PropsCbor

/-!
# Properties of the BSON format
-/

namespace Verif.Json
open Spec

/-! ## Documents -/

mutual
theorem Spec.Bson.Doc.lax {l : Bool} : ∀ {t : Bytes} {ms : List (Bytes × Json Nat)}, Bson.Doc l t ms → Bson.Doc true t ms
  | _, _, .mk h1 _ h3 => .mk h1 (.inl rfl) (Spec.Bson.Elems.lax h3)
theorem Spec.Bson.Elems.lax {l : Bool} : ∀ {t : Bytes} {ms : List (Bytes × Json Nat)}, Bson.Elems l t ms → Bson.Elems true t ms
  | _, _, .nil => .nil
  | _, _, .cons h1 h2 _ h4 h5 => .cons h1 h2 (.inl rfl) (Spec.Bson.Elem.lax h4) (Spec.Bson.Elems.lax h5)
theorem Spec.Bson.Elem.lax {l : Bool} : ∀ {c : Nat} {t : Bytes} {v : Json Nat}, Bson.Elem l c t v → Bson.Elem true c t v
  | _, _, _, .double h1 h2 => .double h1 h2
  | _, _, _, .str h1 h2 h3 _ => .str h1 h2 h3 (.inl rfl)
  | _, _, _, .obj h => .obj (Spec.Bson.Doc.lax h)
  | _, _, _, .arr h1 h2 _ => .arr (Spec.Bson.Doc.lax h1) h2 (.inl rfl)
  | _, _, _, .bool h _ => .bool h (.inl rfl)
  | _, _, _, .null => .null
  | _, _, _, .int32 h => .int32 h
  | _, _, _, .int64 h => .int64 h
end

theorem zero_split : ∀ {k k' a b : Bytes}, 0 ∉ k → 0 ∉ k' → k ++ 0 :: a = k' ++ 0 :: b → k = k' ∧ a = b
  | [], [], _, _, _, _, h => by simpa using h
  | [], _ :: _, _, _, _, h', h => by
    simp only [List.nil_append, List.cons_append, List.cons.injEq] at h
    exact absurd (by simp [h.1]) h'
  | _ :: _, [], _, _, h', _, h => by
    simp only [List.nil_append, List.cons_append, List.cons.injEq] at h
    exact absurd (by simp [h.1]) h'
  | x :: k, y :: k', _, _, h1, h2, h => by
    simp only [List.cons_append, List.cons.injEq] at h
    simp only [List.mem_cons, not_or] at h1 h2
    obtain ⟨rfl, rfl⟩ := zero_split h1.2 h2.2 h.2
    exact ⟨by rw [h.1], rfl⟩

theorem doc_inv {lax : Bool} {s : Bytes} {ms : List (Bytes × Json Nat)} (h : Bson.Doc lax s ms) :
    ∃ sz t n, s = sz ++ (t ++ [0]) ∧ Bson.IsInt 4 sz n ∧ (lax = true ∨ n = (4 + t.length + 1 : Nat)) ∧ Bson.Elems lax t ms := by
  cases h with
  | @mk sz t n _ h1 h2 h3 => exact ⟨sz, t, n, rfl, h1, h2, h3⟩

theorem elems_inv {lax : Bool} {s : Bytes} {ms : List (Bytes × Json Nat)} (h : Bson.Elems lax s ms) :
    (s = [] ∧ ms = []) ∨ ∃ c k t ts v ms', s = c :: (k ++ 0 :: (t ++ ts)) ∧ ms = (k, v) :: ms' ∧ 0 ∉ k ∧
      (lax = true ∨ Utf8 k) ∧ Bson.Elem lax c t v ∧ Bson.Elems lax ts ms' := by
  cases h with
  | nil => exact .inl ⟨rfl, rfl⟩
  | @cons c k t ts v ms' h1 _ h3 h4 h5 => exact .inr ⟨c, k, t, ts, v, ms', rfl, rfl, h1, h3, h4, h5⟩

/-- the first element of a document, and the size of the document -/
theorem docElem_inv {lax : Bool} {sz k r : Bytes} {c : Nat} {ms : List (Bytes × Json Nat)} (hl : sz.length = 4) (hc : c ≠ 0)
    (hk : 0 ∉ k) (h : Bson.Doc lax (sz ++ c :: (k ++ 0 :: r)) ms) :
    ∃ t ts v ms', r = t ++ (ts ++ [0]) ∧ ms = (k, v) :: ms' ∧ Bson.Elem lax c t v := by
  obtain ⟨sz', t, n, e, h1, _, h3⟩ := doc_inv h
  have hs : sz = sz' := (List.append_inj e (by rw [hl, h1.1])).1
  replace e : c :: (k ++ 0 :: r) = t ++ [0] := (List.append_inj e (by rw [hl, h1.1])).2
  subst hs
  rcases elems_inv h3 with ⟨rfl, rfl⟩ | ⟨c', k', t', ts, v, ms', rfl, rfl, hk', _, h4, _⟩
  · simp only [List.nil_append, List.cons.injEq] at e
    exact absurd e.1 hc
  · have e' : k ++ 0 :: r = k' ++ 0 :: (t' ++ (ts ++ [0])) := by simpa using (List.cons.inj e).2
    obtain ⟨rfl, rfl⟩ := zero_split hk hk' e'
    obtain rfl := (List.cons.inj e).1
    exact ⟨t', ts, v, ms', rfl, rfl, h4⟩

/-! ## From the reader to `from_bson` -/

theorem fromBson_doc (m : Mach) (strict ex : Bool) {t r : Bytes} {ms : List (Bytes × Json Nat)} (h : Bson.Doc true t ms)
    (hr : t.length ≤ m.maxStr) : fromBson m strict ex (t ++ r) = finishRead strict ex (.ok (events (.obj ms), r)) := by
  rw [fromBson, bsonDoc_read m ex false (3 * (t ++ r).length + 3) r h hr (by simp; omega)]
  rfl

theorem fromBson_some {m : Mach} {strict ex : Bool} {s r : Bytes} {v : Json Nat} (hs : ∀ b ∈ s, b < 256)
    (h : fromBson m strict ex s = .ok (some v, r)) :
    ∃ t ms, s = t ++ r ∧ Bson.Doc true t ms ∧ v = tidy (.obj ms) ∧ (strict = true → r = []) := by
  rw [fromBson] at h
  cases e : bsonDoc m ex (3 * s.length + 3) false s with
  | running => rw [e] at h; cases h
  | threw k => rw [e] at h; cases h
  | fail id =>
    rw [e] at h
    by_cases h0 : id = 0
    · subst h0; cases h
    · have : finishRead strict ex (.fail id) = .ok (some v, r) := by
        split at h
        · cases h
        · exact h
      rw [finishRead] at this
      cases ex <;> simp at this
  | ok p =>
    obtain ⟨evs, r'⟩ := p
    obtain ⟨t, ms, e', hi, rfl⟩ := bsonDoc_sound m ex _ false s r' evs hs e
    rw [e] at h
    have h : finishRead strict ex (.ok (events (.obj ms), r')) = .ok (some v, r) := h
    rw [finishRead_ok] at h
    by_cases hc : strict = true ∧ r' ≠ []
    · rw [if_pos hc] at h; cases ex <;> simp at h
    · rw [if_neg hc] at h
      cases h
      refine ⟨t, ms, e', hi, rfl, fun hs => ?_⟩
      by_cases hr : r = []
      · exact hr
      · exact absurd ⟨hs, hr⟩ hc

/-- an error after any number of elements -/
theorem bsonElems_then (m : Mach) (ex isArr : Bool) {id N : Nat} {r : Bytes}
    (hr : ∀ f, N ≤ f → bsonElems m ex f isArr r = .fail id) {t : Bytes} {ms : List (Bytes × Json Nat)}
    (h : Bson.Elems true t ms) (hm : t.length ≤ m.maxStr) (fuel : Nat) (hf : t.length + N + 1 ≤ fuel) :
    bsonElems m ex fuel isArr (t ++ r) = .fail id := by
  rcases elems_inv h with ⟨rfl, rfl⟩ | ⟨c, k, t', ts, v, ms', rfl, rfl, hk, _, h4, h5⟩
  · rw [List.nil_append]
    exact hr fuel (by omega)
  · simp only [List.length_append, List.length_cons] at hm hf
    obtain ⟨fuel, rfl⟩ : ∃ f, fuel = f + 1 := ⟨fuel - 1, by omega⟩
    have hc : c ≠ 0 := by cases h4 <;> decide
    have e : c :: (k ++ 0 :: (t' ++ ts)) ++ r = c :: (k ++ 0 :: (t' ++ (ts ++ r))) := by simp
    rw [e, bsonElems, if_neg hc, bsonCstr_read m k 0 _ hk (by omega), Rd.ok_bind,
      bsonValue_read m ex fuel _ h4 (by omega) (by omega), Rd.ok_bind,
      bsonElems_then m ex isArr hr h5 (by omega) fuel (by omega)]
    rfl
termination_by t.length
decreasing_by simp_all; omega

/-- the reader fails at an element of the document -/
theorem bsonDoc_at (m : Mach) (ex : Bool) {id c : Nat} {sz t k r : Bytes} {ms : List (Bytes × Json Nat)}
    (hsz : sz.length = 4) (h : Bson.Elems true t ms) (hc : c ≠ 0) (hk : 0 ∉ k)
    (hm : (sz ++ (t ++ c :: (k ++ 0 :: r))).length ≤ m.maxStr) (hr : ∀ f, bsonValue m ex (f + 1) c r = .fail id) :
    bsonDoc m ex (3 * (sz ++ (t ++ c :: (k ++ 0 :: r))).length + 3) false (sz ++ (t ++ c :: (k ++ 0 :: r))) = .fail id := by
  simp only [List.length_append, List.length_cons] at hm
  rw [show 3 * (sz ++ (t ++ c :: (k ++ 0 :: r))).length + 3 = 3 * (sz ++ (t ++ c :: (k ++ 0 :: r))).length + 2 + 1 from rfl,
    bsonDoc, littleNumber_append m hsz, Rd.ok_bind, bsonElems_then m ex false (id := id) (N := 2) (fun f hf => ?_) h (by omega) _
      (by simp; omega)]
  · rfl
  · obtain ⟨f, rfl⟩ : ∃ g, f = g + 1 + 1 := ⟨f - 2, by omega⟩
    rw [bsonElems, if_neg hc, bsonCstr_read m k 0 _ hk (by omega), Rd.ok_bind, hr]
    rfl

/-! ## Reading -/

/-- **C130** (what holds) The value read from a text of bytes that is read to its end: there is one exactly if the
text is a document of the BSON specification whose elements have a counterpart in JSON – or differs from one only in the
sizes of documents, the last byte of strings, the names in arrays, truth values other than 0 and 1, and strings that are
not UTF-8 – and it is the object with these members, of repeated names the last.  Whether exceptions are
allowed makes no difference. -/
theorem C130_reads_iff (m : Mach) (ex : Bool) {s : Bytes} (hs : ∀ b ∈ s, b < 256) (hr : s.length ≤ m.maxStr) (v : Json Nat) :
    fromBson m true ex s = .ok (some v, []) ↔ ∃ ms, Bson.Doc true s ms ∧ v = tidy (.obj ms) := by
  constructor
  · intro h
    obtain ⟨t, ms, e, hi, hv, _⟩ := fromBson_some hs h
    rw [List.append_nil] at e
    exact ⟨ms, e ▸ hi, hv⟩
  · rintro ⟨ms, hi, rfl⟩
    have := fromBson_doc m true ex (r := []) hi hr
    rw [List.append_nil] at this
    rw [this, finishRead_ok]
    simp

/-- **C130** (what holds) Without `strict`, the bytes after the document are left in the input, whatever they are. -/
theorem C130_rest_iff (m : Mach) (ex : Bool) {s : Bytes} (hs : ∀ b ∈ s, b < 256) (hr : s.length ≤ m.maxStr) (v : Json Nat)
    (r : Bytes) :
    fromBson m false ex s = .ok (some v, r) ↔ ∃ t ms, s = t ++ r ∧ Bson.Doc true t ms ∧ v = tidy (.obj ms) := by
  constructor
  · intro h
    obtain ⟨t, ms, e, hi, hv, _⟩ := fromBson_some hs h
    exact ⟨t, ms, e, hi, hv⟩
  · rintro ⟨t, ms, rfl, hi, rfl⟩
    rw [fromBson_doc m false ex hi (by simp at hr; omega), finishRead_ok]
    simp

/-- **C130** (what holds) Every document of the BSON specification whose elements have a counterpart in JSON is read. -/
theorem C130_standard (m : Mach) (strict ex : Bool) {t r : Bytes} {ms : List (Bytes × Json Nat)} (h : Bson.Doc false t ms)
    (hr : t.length ≤ m.maxStr) (hn : strict = true → r = []) :
    fromBson m strict ex (t ++ r) = .ok (some (tidy (.obj ms)), r) := by
  rw [fromBson_doc m strict ex h.lax hr, finishRead_ok, if_neg fun h => h.2 (hn h.1)]

/-- for the examples: `{"a": [-2], "b": true}` -/
def exBson : Bytes :=
  [0x18, 0, 0, 0] ++ ([0x04, 0x61, 0, 0x0C, 0, 0, 0, 0x10, 0x30, 0, 0xFE, 0xFF, 0xFF, 0xFF, 0] ++ [0x08, 0x62, 0, 0x01] ++ [0])

theorem exBson_doc : Bson.Doc false exBson [([0x61], .arr [.int (-2)]), ([0x62], .bool true)] := by
  refine Bson.Doc.mk (sz := [0x18, 0, 0, 0]) (n := 24)
    (t := [0x04, 0x61, 0, 0x0C, 0, 0, 0, 0x10, 0x30, 0, 0xFE, 0xFF, 0xFF, 0xFF, 0] ++ [0x08, 0x62, 0, 0x01])
    ⟨rfl, by decide, by decide, by decide, by decide⟩ (.inr (by decide)) ?_
  refine Bson.Elems.cons (c := 4) (k := [0x61]) (t := [0x0C, 0, 0, 0, 0x10, 0x30, 0, 0xFE, 0xFF, 0xFF, 0xFF, 0])
    (ts := [0x08, 0x62, 0, 0x01]) (by decide) (by decide) (.inr (utf8_ascii (by decide))) ?_ ?_
  · refine Bson.Elem.arr (ms := [([0x30], .int (-2))]) ?_ rfl (.inr ?_)
    · refine Bson.Doc.mk (sz := [0x0C, 0, 0, 0]) (t := [0x10, 0x30, 0, 0xFE, 0xFF, 0xFF, 0xFF]) (n := 12)
        ⟨rfl, by decide, by decide, by decide, by decide⟩ (.inr (by decide)) ?_
      exact Bson.Elems.cons (k := [0x30]) (t := [0xFE, 0xFF, 0xFF, 0xFF]) (ts := []) (by decide) (by decide)
        (.inr (utf8_ascii (by decide))) (.int32 ⟨rfl, by decide, by decide, by decide, by decide⟩) .nil
    · simp [List.range, List.range.loop, digits]
  · exact Bson.Elems.cons (k := [0x62]) (t := [0x01]) (ts := []) (by decide) (by decide) (.inr (utf8_ascii (by decide)))
      (Bson.Elem.bool (b := 1) (by decide) (.inr (by decide))) .nil

example : fromBson (exMach true) false true (exBson ++ [0xFF]) =
    .ok (some (.obj [([0x61], .arr [.int (-2)]), ([0x62], .bool true)]), [0xFF]) :=
  C130_standard (exMach true) false true exBson_doc (by decide) nofun

example : fromBson (exMach false) true false exBson =
    .ok (some (.obj [([0x61], .arr [.int (-2)]), ([0x62], .bool true)]), []) := by
  rw [C130_reads_iff _ _ (by decide) (by decide)]
  exact ⟨_, exBson_doc.lax, rfl⟩

example : fromBson (exMach true) false true (exBson ++ [0]) =
    .ok (some (.obj [([0x61], .arr [.int (-2)]), ([0x62], .bool true)]), [0]) := by
  rw [C130_rest_iff _ _ (by decide) (by decide)]
  exact ⟨exBson, _, rfl, exBson_doc.lax, rfl⟩

/-- **C130** (what does not hold) The size at the front of a document is not looked at: any four bytes do, although the BSON
specification has the number of bytes there. -/
theorem C130_size_fails (m : Mach) (strict ex : Bool) {sz sz' t : Bytes} (h : sz.length = 4) (h' : sz'.length = 4) :
    fromBson m strict ex (sz ++ t) = fromBson m strict ex (sz' ++ t) ∧
    ((∀ b ∈ sz, b < 256) → ∀ ms, Bson.Doc false (sz ++ t) ms → Bson.little sz = 4 + t.length) := by
  constructor
  · rw [fromBson, fromBson]
    simp only [List.length_append, h, h']
    rw [show 3 * (4 + t.length) + 3 = 3 * (4 + t.length) + 2 + 1 from rfl, bsonDoc, bsonDoc, littleNumber_append m h,
      littleNumber_append m h']
    rfl
  · intro hb ms hd
    obtain ⟨sz', t', n, e, h1, h2, _⟩ := doc_inv hd
    obtain ⟨rfl, rfl⟩ := List.append_inj e (by rw [h, h1.1])
    rcases h2 with h2 | h2
    · cases h2
    · have := h1.2.2.2.2
      have hlt := little_lt hb
      have := h1.2.2.2.1
      rw [h] at hlt
      simp only [List.length_append, List.length_cons, List.length_nil]
      omega

/-- the empty object, with a size of 0, and of -1 -/
example : fromBson (exMach true) true true [0, 0, 0, 0, 0] = .ok (some (.obj []), []) ∧
    fromBson (exMach true) true true [0xFF, 0xFF, 0xFF, 0xFF, 0] = .ok (some (.obj []), []) ∧
    ¬ ∃ ms, Bson.Doc false [0, 0, 0, 0, 0] ms := by
  have h1 : fromBson (exMach true) true true [5, 0, 0, 0, 0] = .ok (some (.obj []), []) := by
    rw [C130_reads_iff _ _ (by decide) (by decide)]
    exact ⟨[], .mk (sz := [5, 0, 0, 0]) (n := 5) (t := []) ⟨rfl, by decide, by decide, by decide, by decide⟩ (.inl rfl) .nil,
      rfl⟩
  refine ⟨?_, ?_, fun ⟨ms, h⟩ => ?_⟩
  · rw [← h1]; exact (C130_size_fails _ _ _ (sz := [0, 0, 0, 0]) (sz' := [5, 0, 0, 0]) (t := [0]) rfl rfl).1
  · rw [← h1]; exact (C130_size_fails _ _ _ (sz := [0xFF, 0xFF, 0xFF, 0xFF]) (sz' := [5, 0, 0, 0]) (t := [0]) rfl rfl).1
  · have := (C130_size_fails (exMach true) true true (sz := [0, 0, 0, 0]) (sz' := [0, 0, 0, 0]) (t := [0]) rfl rfl).2
      (by decide) ms h
    revert this; decide

theorem not_utf8 : ¬ Utf8 [0xFF] := by
  rintro ⟨cs, hc, e⟩
  match cs, hc, e with
  | c :: cs, hc, e =>
    have := hc c (by simp)
    rw [Scalar] at this
    rw [utf8All, utf8] at e
    split at e
    · simp only [List.singleton_append, List.cons.injEq] at e; omega
    · split at e
      · simp only [List.cons_append, List.cons.injEq] at e; omega
      · split at e
        · simp only [List.cons_append, List.cons.injEq] at e; omega
        · simp only [List.cons_append, List.cons.injEq] at e; omega

/-- **C130** (what does not hold) Texts that are no documents of the BSON specification are read as values: a truth value
that is neither 0 nor 1; a string that does not end with 0; a string that is not UTF-8; an array whose elements have other
names than "0", "1", … -/
theorem C130_accepts_fails (m : Mach) (strict ex : Bool) (hr : 20 ≤ m.maxStr) :
    (fromBson m strict ex ([9, 0, 0, 0] ++ 0x08 :: ([0x61] ++ 0 :: [2, 0])) = .ok (some (.obj [([0x61], .bool true)]), []) ∧
      ¬ ∃ ms, Bson.Doc false ([9, 0, 0, 0] ++ 0x08 :: ([0x61] ++ 0 :: [2, 0])) ms) ∧
    (fromBson m strict ex ([13, 0, 0, 0] ++ 0x02 :: ([0x61] ++ 0 :: [1, 0, 0, 0, 7, 0])) =
        .ok (some (.obj [([0x61], .str [])]), []) ∧
      ¬ ∃ ms, Bson.Doc false ([13, 0, 0, 0] ++ 0x02 :: ([0x61] ++ 0 :: [1, 0, 0, 0, 7, 0])) ms) ∧
    (fromBson m strict ex ([14, 0, 0, 0] ++ 0x02 :: ([0x61] ++ 0 :: [2, 0, 0, 0, 0xFF, 0, 0])) =
        .ok (some (.obj [([0x61], .str [0xFF])]), []) ∧
      ¬ ∃ ms, Bson.Doc false ([14, 0, 0, 0] ++ 0x02 :: ([0x61] ++ 0 :: [2, 0, 0, 0, 0xFF, 0, 0])) ms) ∧
    (fromBson m strict ex ([16, 0, 0, 0] ++ 0x04 :: ([0x61] ++ 0 :: [8, 0, 0, 0, 0x0A, 0x78, 0, 0, 0])) =
        .ok (some (.obj [([0x61], .arr [.null])]), []) ∧
      ¬ ∃ ms, Bson.Doc false ([16, 0, 0, 0] ++ 0x04 :: ([0x61] ++ 0 :: [8, 0, 0, 0, 0x0A, 0x78, 0, 0, 0])) ms) := by
  have read : ∀ {N c : Nat} {t : Bytes} {v : Json Nat}, N < 128 → Bson.Elem true c t v → t.length ≤ 12 → tidy v = v →
      fromBson m strict ex ([N, 0, 0, 0] ++ c :: ([0x61] ++ 0 :: (t ++ [0]))) = .ok (some (.obj [([0x61], v)]), []) := by
    intro N c t v hN h hl hv
    have hd : Bson.Doc true ([N, 0, 0, 0] ++ ((c :: ([0x61] ++ 0 :: (t ++ []))) ++ [0])) [([0x61], v)] := by
      refine .mk (n := N) ⟨rfl, by simp; omega, by omega, by omega, ?_⟩ (.inl rfl)
        (.cons (by decide) (by decide) (.inl rfl) h .nil)
      simp [Bson.little, big]
      omega
    have := fromBson_doc m strict ex (r := []) hd (by simp; omega)
    rw [List.append_nil] at this
    have e : [N, 0, 0, 0] ++ c :: ([0x61] ++ 0 :: (t ++ [0])) = [N, 0, 0, 0] ++ ((c :: ([0x61] ++ 0 :: (t ++ []))) ++ [0]) := by
      simp
    rw [e, this, finishRead_ok]
    simp [tidy, tidyM, setKey, hv]
  have str : ∀ {n e : Nat} {s : Bytes}, n = s.length + 1 → n < 128 → (∀ b ∈ s, b < 256) → e < 256 →
      Bson.Elem true 0x02 ([n, 0, 0, 0] ++ (s ++ [e])) (.str s) := by
    intro n e s hn hN hb he
    refine .str ⟨rfl, by simp; omega, by omega, by omega, ?_⟩ hb he (.inl rfl)
    simp [Bson.little, big]
    omega
  have strInv : ∀ {n : Nat} {t ts : Bytes} {r : Bytes} {v : Json Nat}, n < 128 → Bson.Elem false 0x02 t v →
      [n, 0, 0, 0] ++ r = t ++ ts → ∃ s, s.length + 1 = n ∧ r = s ++ (0 :: ts) ∧ Utf8 s := by
    intro n t ts r v hn h e
    cases h with
    | @str sz s e' h1 h2 h3 h4 =>
      rcases h4 with h4 | ⟨rfl, h4⟩
      · cases h4
      · rw [List.append_assoc] at e
        obtain ⟨rfl, rfl⟩ := List.append_inj e (by rw [h1.1]; rfl)
        refine ⟨s, ?_, by simp, h4⟩
        have := h1.2.2.2.2
        have h5 := h1.2.2.2.1
        simp [Bson.little, big] at this
        omega
  refine ⟨⟨?_, ?_⟩, ⟨?_, ?_⟩, ⟨?_, ?_⟩, ⟨?_, ?_⟩⟩
  · exact read (by decide) (.bool (b := 2) (by decide) (.inl rfl)) (by decide) rfl
  · rintro ⟨ms, h⟩
    obtain ⟨t, ts, v, ms', e, _, h1⟩ := docElem_inv rfl (by decide) (by decide) h
    cases h1 with
    | @bool b hb h2 =>
      simp only [List.singleton_append, List.cons.injEq] at e
      rcases h2 with h2 | h2
      · cases h2
      · omega
  · exact read (by decide) (str (n := 1) (s := []) (e := 7) rfl (by decide) (by decide) (by decide)) (by decide) rfl
  · rintro ⟨ms, h⟩
    obtain ⟨t, ts, v, ms', e, _, h1⟩ := docElem_inv rfl (by decide) (by decide) h
    obtain ⟨s, hs, e, _⟩ := strInv (n := 1) (r := [7, 0]) (by decide) h1 e
    obtain rfl : s = [] := List.length_eq_zero_iff.mp (by omega)
    simp at e
  · exact read (by decide) (str (n := 2) (s := [0xFF]) (e := 0) rfl (by decide) (by decide) (by decide)) (by decide) rfl
  · rintro ⟨ms, h⟩
    obtain ⟨t, ts, v, ms', e, _, h1⟩ := docElem_inv rfl (by decide) (by decide) h
    obtain ⟨s, hs, e, hu⟩ := strInv (n := 2) (r := [0xFF, 0, 0]) (by decide) h1 e
    match s, hs with
    | [b], _ =>
      simp only [List.cons_append, List.cons.injEq] at e
      obtain rfl := e.1
      exact not_utf8 hu
  · refine read (t := [8, 0, 0, 0, 0x0A, 0x78, 0, 0]) (by decide) (.arr (ms := [([0x78], .null)]) ?_ rfl (.inl rfl)) (by decide) rfl
    exact .mk (sz := [8, 0, 0, 0]) (t := [0x0A, 0x78, 0]) (n := 8) ⟨rfl, by decide, by decide, by decide, by decide⟩ (.inl rfl)
      (.cons (k := [0x78]) (t := []) (ts := []) (by decide) (by decide) (.inl rfl) .null .nil)
  · rintro ⟨ms, h⟩
    obtain ⟨t, ts, v, ms', e, _, h1⟩ := docElem_inv rfl (by decide) (by decide) h
    cases h1 with
    | @arr _ ms1 vs h2 _ h3 =>
      obtain ⟨sz, t1, n, rfl, h4, h5, h6⟩ := doc_inv h2
      have e' : [8, 0, 0, 0] ++ [0x0A, 0x78, 0, 0, 0] = sz ++ (t1 ++ ([0] ++ (ts ++ [0]))) := by simpa using e
      replace e' : [0x0A, 0x78, 0, 0, 0] = t1 ++ ([0] ++ (ts ++ [0])) := (List.append_inj e' (by rw [h4.1]; rfl)).2
      rcases elems_inv h6 with ⟨rfl, rfl⟩ | ⟨c, k, t', ts', v', ms2, rfl, rfl, hk, _, h7, h8⟩
      · simp at e'
      · have e2 : [0x78] ++ 0 :: [0, 0] = k ++ 0 :: (t' ++ (ts' ++ ([0] ++ (ts ++ [0])))) := by
          simpa using (List.cons.inj e').2
        obtain ⟨rfl, _⟩ := zero_split (by decide) hk e2
        rcases h3 with h3 | h3
        · cases h3
        · simp [List.range_succ_eq_map, digits] at h3

example : fromBson (exMach true) true true ([9, 0, 0, 0] ++ 0x08 :: ([0x61] ++ 0 :: [2, 0])) =
    .ok (some (.obj [([0x61], .bool true)]), []) :=
  (C130_accepts_fails (exMach true) true true (by decide)).1.1

/-- **C130** (what holds) With `strict`, anything after the document is an error, `parse_error.110`. -/
theorem C130_trailing (m : Mach) {t r : Bytes} {ms : List (Bytes × Json Nat)} (h : Bson.Doc true t ms)
    (hr : t.length ≤ m.maxStr) (hn : r ≠ []) :
    fromBson m true true (t ++ r) = .throws "parse_error.110" ∧
    ∃ r', fromBson m true false (t ++ r) = .ok (none, r') := by
  rw [fromBson_doc m true true h hr, fromBson_doc m true false h hr, finishRead_ok, finishRead_ok]
  simp [hn]

example : fromBson (exMach true) true true (exBson ++ [0]) = .throws "parse_error.110" :=
  (C130_trailing (exMach true) exBson_doc.lax (by decide) (by decide)).1

/-- **C130** (what holds) Of a document no beginning is read as a value: if the input ends too early, `parse_error.110` is
thrown, or a value of type `discarded` is returned – see `C130_silent_fails` – with or without `strict`; without
exceptions, it is always the latter. -/
theorem C130_truncated (m : Mach) (strict : Bool) {p q : Bytes} {ms : List (Bytes × Json Nat)} (hs : ∀ b ∈ p ++ q, b < 256)
    (h : Bson.Doc true (p ++ q) ms) (hr : (p ++ q).length ≤ m.maxStr) (hq : q ≠ []) :
    (fromBson m strict true p = .throws "parse_error.110" ∨ fromBson m strict true p = .ok (none, [])) ∧
    fromBson m strict false p = .ok (none, []) := by
  have key : ∀ ex, bsonDoc m ex (3 * p.length + 3) false p = .fail 110 ∨ bsonDoc m ex (3 * p.length + 3) false p = .fail 0 := by
    intro ex
    have h1 := bsonDoc_read m ex false (3 * (p ++ q).length + 3) [] h hr (by omega)
    rw [List.append_nil] at h1
    have h2 := bsonDoc_goes m ex q (3 * p.length + 3) (3 * (p ++ q).length + 3) false p (by simp; omega)
    have h3 := bsonDoc_ends m ex p.length (3 * p.length + 3) false p (AllBytes.left (t := p) (s := q) fun b hb => hs b hb)
      (Nat.le_refl _) (by omega)
    rw [h1] at h2
    cases e : bsonDoc m ex (3 * p.length + 3) false p with
    | running => rw [e] at h3; exact h3.elim
    | threw k => rw [e] at h2; cases h2
    | fail id =>
      rw [e] at h2
      rcases h2 with (h2 | h2) | h2
      · exact .inl (by rw [h2])
      · exact .inr (by rw [h2])
      · cases h2
    | ok x =>
      obtain ⟨a, r⟩ := x
      rw [e] at h2
      simp only [BsonGoes, Rd.ok.injEq, Prod.mk.injEq] at h2
      have := congrArg List.length h2.2
      rw [List.length_append] at this
      have : 0 < q.length := List.length_pos_iff.mpr hq
      simp at *
      omega
  rw [fromBson, fromBson]
  constructor
  · rcases key true with h | h
    · rw [h]; exact .inl rfl
    · rw [h]; exact .inr rfl
  · rcases key false with h | h <;> rw [h] <;> rfl

/-- the document without its last byte -/
example : fromBson (exMach false) true true exBson.dropLast ≠ .ok (some (.obj []), []) := by
  rcases (C130_truncated (exMach false) true (p := exBson.dropLast) (q := [0]) (by decide) exBson_doc.lax (by decide)
    (by decide)).1 with h | h <;> rw [h] <;> simp

/-- **C130** (what does not hold) Exceptions allowed, an input that ends where a string should end with its zero byte is no error:
`from_bson` returns a value of type `discarded`.  The elements before can be any. -/
theorem C130_silent_fails (m : Mach) (strict ex : Bool) {sz t k len s : Bytes} {ms : List (Bytes × Json Nat)}
    (hsz : sz.length = 4) (h : Bson.Elems true t ms) (hk : 0 ∉ k) (hl : Bson.IsInt 4 len (s.length + 1 : Nat))
    (hm : (sz ++ (t ++ 0x02 :: (k ++ 0 :: (len ++ s)))).length ≤ m.maxStr) :
    fromBson m strict ex (sz ++ (t ++ 0x02 :: (k ++ 0 :: (len ++ s)))) = .ok (none, []) := by
  rw [fromBson, bsonDoc_at m ex (id := 0) hsz h (by decide) hk hm fun f => ?_]
  · rfl
  · simp only [List.length_append, List.length_cons] at hm
    rw [bsonValue]
    branch
    rw [littleNumber_append m hl.1, Rd.ok_bind, isInt_only (k := 2) (by decide) (by decide) hl, bsonString, if_neg (by omega)]
    have := takeString_append m ex (t := s) (len := s.length) rfl (by omega) []
    rw [List.append_nil] at this
    rw [show (((s.length + 1 : Nat) : Int) - 1).toNat = s.length by omega, this]
    rfl

/-- `{"a": "b` -/
example : fromBson (exMach true) true true [14, 0, 0, 0, 0x02, 0x61, 0, 2, 0, 0, 0, 0x62] = .ok (none, []) :=
  C130_silent_fails (exMach true) true true (sz := [14, 0, 0, 0]) (t := []) (k := [0x61]) (len := [2, 0, 0, 0]) (s := [0x62])
    rfl .nil (by decide) ⟨rfl, by decide, by decide, by decide, by decide⟩ (by decide)

/-- **C130** (what holds) Elements of other types than the eight that have a counterpart in JSON – binary data, dates, regular
expressions, decimal numbers and so on – are an error, `parse_error.114`, whatever stands before and after them. -/
theorem C130_unsupported (m : Mach) (strict : Bool) {c : Nat} {sz t k r : Bytes} {ms : List (Bytes × Json Nat)}
    (hsz : sz.length = 4) (h : Bson.Elems true t ms) (hk : 0 ∉ k)
    (hc : c ∉ [0x00, 0x01, 0x02, 0x03, 0x04, 0x08, 0x0A, 0x10, 0x12])
    (hm : (sz ++ (t ++ c :: (k ++ 0 :: r))).length ≤ m.maxStr) :
    fromBson m strict true (sz ++ (t ++ c :: (k ++ 0 :: r))) = .throws "parse_error.114" := by
  simp only [List.mem_cons, List.not_mem_nil, or_false, not_or] at hc
  rw [fromBson, bsonDoc_at m true (id := 114) hsz h hc.1 hk hm fun f => ?_]
  · rfl
  · rw [bsonValue]
    branch

/-- a date -/
example : fromBson (exMach true) true true [16, 0, 0, 0, 0x09, 0x61, 0, 0, 0, 0, 0, 0, 0, 0, 0, 0] = .throws "parse_error.114" :=
  C130_unsupported (exMach true) true (sz := [16, 0, 0, 0]) (t := []) (k := [0x61]) (r := [0, 0, 0, 0, 0, 0, 0, 0, 0]) rfl .nil
    (by decide) (by decide) (by decide)

/-- **C130** (what holds) Strings with a length below 1 are an error, `parse_error.112`: the length includes the zero at the end. -/
theorem C130_length (m : Mach) (strict : Bool) {sz t k len r : Bytes} {n : Int} {ms : List (Bytes × Json Nat)}
    (hsz : sz.length = 4) (h : Bson.Elems true t ms) (hk : 0 ∉ k) (hl : Bson.IsInt 4 len n) (hn : n < 1)
    (hm : (sz ++ (t ++ 0x02 :: (k ++ 0 :: (len ++ r)))).length ≤ m.maxStr) :
    fromBson m strict true (sz ++ (t ++ 0x02 :: (k ++ 0 :: (len ++ r)))) = .throws "parse_error.112" := by
  rw [fromBson, bsonDoc_at m true (id := 112) hsz h (by decide) hk hm fun f => ?_]
  · rfl
  · rw [bsonValue]
    branch
    rw [littleNumber_append m hl.1, Rd.ok_bind, isInt_only (k := 2) (by decide) (by decide) hl, bsonString, if_pos hn]
    rfl

/-- a length of -2^31 -/
example : fromBson (exMach true) true true [12, 0, 0, 0, 0x02, 0x61, 0, 0, 0, 0, 0x80, 0] = .throws "parse_error.112" :=
  C130_length (exMach true) true (sz := [12, 0, 0, 0]) (t := []) (k := [0x61]) (len := [0, 0, 0, 0x80]) (r := [0])
    (n := -2147483648) rfl .nil (by decide) ⟨rfl, by decide, by decide, by decide, by decide⟩ (by decide) (by decide)

/-- **C130** (what holds) Reading always comes to an end, and to a defined one: a value (perhaps of type `discarded`), or
`parse_error` 110, 112 or 114, the latter only if exceptions are allowed; or `std::length_error`, which needs a name or a
string longer than `max_size()`. -/
theorem C130_terminates (m : Mach) (strict ex : Bool) {s : Bytes} (hs : ∀ b ∈ s, b < 256) :
    (∃ v r, fromBson m strict ex s = .ok (v, r)) ∨
    (ex = true ∧ ∃ k ∈ ["parse_error.110", "parse_error.112", "parse_error.114"], fromBson m strict ex s = .throws k) ∨
    (fromBson m strict ex s = .throws "std::length_error" ∧ (m.maxStr < s.length ∨ (ex = false ∧ m.maxStr < 2 ^ 31))) := by
  have h := bsonDoc_ends m ex s.length (3 * s.length + 3) false s hs (Nat.le_refl _) (by omega)
  rw [fromBson]
  cases e : bsonDoc m ex (3 * s.length + 3) false s with
  | running => rw [e] at h; exact h.elim
  | fail id =>
    rw [e] at h
    rcases h with rfl | rfl | rfl | rfl
    · exact .inl ⟨_, _, rfl⟩
    · cases ex with
      | false => exact .inl ⟨_, _, rfl⟩
      | true => exact .inr (.inl ⟨rfl, "parse_error.110", by simp, rfl⟩)
    · cases ex with
      | false => exact .inl ⟨_, _, rfl⟩
      | true => exact .inr (.inl ⟨rfl, "parse_error.112", by simp, rfl⟩)
    · cases ex with
      | false => exact .inl ⟨_, _, rfl⟩
      | true => exact .inr (.inl ⟨rfl, "parse_error.114", by simp, rfl⟩)
  | threw k =>
    rw [e] at h
    obtain ⟨rfl, h⟩ := h
    exact .inr (.inr ⟨rfl, h⟩)
  | ok p =>
    obtain ⟨evs, r⟩ := p
    obtain ⟨t, ms, _, _, rfl⟩ := bsonDoc_sound m ex _ false s r evs hs e
    show _ ∨ (_ ∧ ∃ k ∈ _, finishRead strict ex (.ok (events (.obj ms), r)) = .throws k) ∨ _
    have e' : (match (Rd.ok (events (bsonJson false ms), r) : Rd (List (Event Nat) × Bytes)) with
      | .fail 0 => .ok (none, [])
      | r => finishRead strict ex r) = finishRead strict ex (.ok (events (.obj ms), r)) := rfl
    simp only [e', finishRead_ok]
    by_cases hc : strict = true ∧ r ≠ []
    · rw [if_pos hc]
      cases ex with
      | false => exact .inl ⟨_, _, rfl⟩
      | true => exact .inr (.inl ⟨rfl, "parse_error.110", by simp, rfl⟩)
    · rw [if_neg hc]
      exact .inl ⟨_, _, rfl⟩

/-- any number of nested objects -/
example (m : Mach) (strict : Bool) (n : Nat) : fromBson m strict true (List.replicate n 0x03) ≠ .diverges := by
  intro h
  have := C130_terminates m strict true (s := List.replicate n 0x03) fun b hb => by
    rw [List.eq_of_mem_replicate hb]; decide
  rw [h] at this
  rcases this with ⟨_, _, h⟩ | ⟨_, _, _, h⟩ | ⟨h, _⟩ <;> cases h

/-! ## Writing -/

/-- **C131** (what holds) What is written and what is refused: a value other than an object, with `type_error.317`; else a name
with a zero byte, at any depth, with `out_of_range.409`; else an unsigned integer of 2^63 or more, at any depth, with
`out_of_range.407`.  Everything else is written. -/
theorem C131_refuses (m : Mach) {v : Json Nat} (hv : Held v) (hf : ∀ x ∈ floats v, x < 2 ^ 64) :
    (toBson m v = .throws "type_error.317" ↔ ∀ ms, v ≠ .obj ms) ∧
    (toBson m v = .throws "out_of_range.409" ↔ (∃ ms, v = .obj ms) ∧ ∃ k ∈ names v, 0 ∈ k) ∧
    (toBson m v = .throws "out_of_range.407" ↔
      (∃ ms, v = .obj ms) ∧ (∀ k ∈ names v, 0 ∉ k) ∧ ∃ n ∈ uints v, 2 ^ 63 ≤ n) ∧
    ((∃ t, toBson m v = .ok t) ↔ (∃ ms, v = .obj ms) ∧ (∀ k ∈ names v, 0 ∉ k) ∧ ∀ n ∈ uints v, n < 2 ^ 63) := by
  cases v with
  | obj ms =>
    rw [Held] at hv
    rw [floats] at hf
    rw [toBson, names, uints]
    by_cases hk : ∃ k ∈ namesM ms, 0 ∈ k
    · rw [bsonSizeM_refuses ms hk]
      obtain ⟨k, hk, h0⟩ := hk
      have h1 : ¬ ∀ k ∈ namesM ms, 0 ∉ k := fun h => h k hk h0
      simp only [Outcome.bind]
      refine ⟨by simp, ?_, ?_, ?_⟩
      · exact ⟨fun _ => ⟨⟨ms, rfl⟩, k, hk, h0⟩, fun _ => trivial⟩
      · exact ⟨nofun, fun h => absurd h.2.1 h1⟩
      · exact ⟨nofun, fun h => absurd h.2.1 h1⟩
    · have hk' : ∀ k ∈ namesM ms, 0 ∉ k := fun k h h0 => hk ⟨k, h, h0⟩
      obtain ⟨n, e⟩ := bsonSizeM_ok ms hk'
      rw [e]
      by_cases hu : ∃ n ∈ uintsM ms, 2 ^ 63 ≤ n
      · rw [bsonElemsM_refuses m ms hv hf hk' hu]
        simp only [Outcome.bind]
        refine ⟨by simp, ?_, ?_, ?_⟩
        · exact ⟨nofun, fun h => absurd h.2 hk⟩
        · exact ⟨fun _ => ⟨⟨ms, rfl⟩, hk', hu⟩, fun _ => trivial⟩
        · refine ⟨nofun, fun h => ?_⟩
          obtain ⟨n, hn, hn'⟩ := hu
          have := h.2.2 n hn
          omega
      · have hu' : ∀ n ∈ uintsM ms, n < 2 ^ 63 := fun n hn => by by_contra hc; exact hu ⟨n, hn, by omega⟩
        obtain ⟨t, h1, _, _⟩ := bsonElemsM_doc true ms hv hf hk' hu'
        rw [h1 m]
        simp only [Outcome.bind]
        refine ⟨by simp, ?_, ?_, ?_⟩
        · exact ⟨nofun, fun h => absurd h.2 hk⟩
        · exact ⟨nofun, fun h => absurd h.2.2 hu⟩
        · exact ⟨fun _ => ⟨⟨ms, rfl⟩, hk', hu'⟩, fun _ => ⟨_, rfl⟩⟩
  | _ => simp [toBson]

/-- one of each -/
example : toBson (exMach true) (.arr []) = .throws "type_error.317" ∧
    toBson (exMach true) (.obj [([0x61], .arr [.obj [([0x62, 0], .null)]])]) = .throws "out_of_range.409" ∧
    toBson (exMach true) (.obj [([0x61], .arr [.uint (2 ^ 63)])]) = .throws "out_of_range.407" := by
  refine ⟨(C131_refuses _ (by simp [Held, HeldL]) (by simp [floats, floatsL])).1.mpr nofun,
    (C131_refuses _ (by simp [Held, HeldL, HeldM]) (by simp [floats, floatsL, floatsM])).2.1.mpr
      ⟨⟨_, rfl⟩, [0x62, 0], by simp [names, namesL, namesM], by simp⟩,
    (C131_refuses _ (by simp [Held, HeldL, HeldM]) (by simp [floats, floatsL, floatsM])).2.2.1.mpr
      ⟨⟨_, rfl⟩, by simp [names, namesL, namesM], 2 ^ 63, by simp [uints, uintsL, uintsM], by omega⟩⟩

/-- what is written, for the specification or for the reader of the code -/
theorem toBson_doc (lax : Bool) (m : Mach) {ms : List (Bytes × Json Nat)} {t : Bytes} (hv : Held (.obj ms))
    (hf : ∀ x ∈ floats (.obj ms), x < 2 ^ 64) (h : toBson m (.obj ms) = .ok t)
    (hs : BsonFits lax t.length (texts (.obj ms)) (strings (.obj ms))) :
    Bson.Doc lax t (signedM ms) ∧ (∀ n ∈ uints (.obj ms), n < 2 ^ 63) ∧ ∀ m', toBson m' (.obj ms) = .ok t := by
  obtain ⟨_, hk, hu⟩ := (C131_refuses m hv hf).2.2.2.mp ⟨t, h⟩
  obtain ⟨c, t', h1, h2, h3⟩ := bsonElem_doc lax (.obj ms) hv hf hk hu
  have hu' := hu
  rw [names] at hk; rw [uints] at hu; rw [Held] at hv; rw [floats] at hf
  obtain ⟨ts, h4, h5, h6⟩ := bsonElemsM_doc lax ms hv hf hk hu
  have e : ∀ m', toBson m' (.obj ms) = .ok (lowBytes 4 ((4 + ts.length + 1) % 2 ^ 32) ++ (ts ++ [0])) := by
    intro m'
    rw [toBson, h5, h4]
    simp [Outcome.bind, writeLittle_eq]
  rw [e m] at h
  cases h
  rw [texts, strings] at hs
  simp only [List.length_append, lowBytes_length, List.length_cons, List.length_nil] at hs
  exact ⟨doc_fits (hs.mono (by omega) (fun _ h => h) fun _ h => h)
    (h6 (hs.mono (by omega) (fun _ h => h) fun _ h => h)), hu', e⟩

mutual
/-- the bytes written are no fewer than those of any string in the value -/
theorem texts_le : ∀ (v : Json Nat) (n : Nat), bsonSize v = .ok n → ∀ s ∈ texts v, s.length + 1 ≤ n
  | .null, _, _ | .bool _, _, _ | .int _, _, _ | .uint _, _, _ | .float _, _, _ => by simp [texts]
  | .str s, n, h => by
    rw [bsonSize] at h
    cases h
    simp [texts]
  | .arr xs, n, h => by
    rw [bsonSize] at h
    cases e : bsonSizeL 0 xs with
    | ok k =>
      rw [e] at h; cases h
      intro s hs
      rw [texts] at hs
      have := textsL_le 0 xs k e s hs
      omega
    | _ => rw [e] at h; cases h
  | .obj ms, n, h => by
    rw [bsonSize] at h
    cases e : bsonSizeM ms with
    | ok k =>
      rw [e] at h; cases h
      intro s hs
      rw [texts] at hs
      have := textsM_le ms k e s hs
      omega
    | _ => rw [e] at h; cases h
theorem textsL_le : ∀ (i : Nat) (vs : List (Json Nat)) (n : Nat), bsonSizeL i vs = .ok n → ∀ s ∈ textsL vs, s.length + 1 ≤ n
  | _, [], _, _ => by simp [textsL]
  | i, v :: vs, n, h => by
    rw [bsonSizeL, toStr_header] at h
    cases e : bsonSize v with
    | ok a =>
      cases e' : bsonSizeL (i + 1) vs with
      | ok b =>
        rw [e, e'] at h; cases h
        intro s hs
        rw [textsL, List.mem_append] at hs
        rcases hs with hs | hs
        · have := texts_le v a e s hs; omega
        · have := textsL_le (i + 1) vs b e' s hs; omega
      | _ => rw [e, e'] at h; cases h
    | _ => rw [e] at h; cases h
theorem textsM_le : ∀ (ms : List (Bytes × Json Nat)) (n : Nat), bsonSizeM ms = .ok n → ∀ s ∈ textsM ms, s.length + 1 ≤ n
  | [], _, _ => by simp [textsM]
  | (k, v) :: ms, n, h => by
    rw [bsonSizeM] at h
    cases e0 : bsonHeaderSize k with
    | ok c =>
      cases e : bsonSize v with
      | ok a =>
        cases e' : bsonSizeM ms with
        | ok b =>
          rw [e0, e, e'] at h; cases h
          intro s hs
          rw [textsM, List.mem_append] at hs
          rcases hs with hs | hs
          · have := texts_le v a e s hs; omega
          · have := textsM_le ms b e' s hs; omega
        | _ => rw [e0, e, e'] at h; cases h
      | _ => rw [e0, e] at h; cases h
    | _ => rw [e0] at h; cases h
end

theorem texts_written (m : Mach) {ms : List (Bytes × Json Nat)} {t : Bytes} (hv : Held (.obj ms))
    (hf : ∀ x ∈ floats (.obj ms), x < 2 ^ 64) (h : toBson m (.obj ms) = .ok t) :
    ∀ s ∈ texts (.obj ms), s.length + 1 ≤ t.length := by
  obtain ⟨_, hk, hu⟩ := (C131_refuses m hv hf).2.2.2.mp ⟨t, h⟩
  rw [names] at hk; rw [uints] at hu; rw [Held] at hv; rw [floats] at hf
  obtain ⟨ts, h4, h5, h6⟩ := bsonElemsM_doc true ms hv hf hk hu
  rw [toBson, h5, h4] at h
  cases h
  intro s hs
  rw [texts] at hs
  have := textsM_le ms _ h5 s hs
  simp
  omega

/-- **C131** (what holds) What `to_bson` returns is a document of the BSON specification with the members of the object, all
integers signed, provided that strings and names are UTF-8 and that fewer than 2^31 bytes are written.  (A document of more
bytes does not exist: its size has no place in four bytes.) -/
theorem C131_standard_partial (m : Mach) {ms : List (Bytes × Json Nat)} {t : Bytes} (hv : Held (.obj ms))
    (hf : ∀ x ∈ floats (.obj ms), x < 2 ^ 64) (h : toBson m (.obj ms) = .ok t) (hl : t.length < 2 ^ 31)
    (hs : ∀ s ∈ strings (.obj ms), Utf8 s) : Bson.Doc false t (signedM ms) := by
  refine (toBson_doc false m hv hf h ⟨fun s hs' => ?_, .inr ⟨hl, hs⟩⟩).1
  have := texts_written m hv hf h s hs'
  omega

/-- `{"a": [-2], "b": true}` -/
example : toBson (exMach false) (.obj [([0x61], .arr [.int (-2)]), ([0x62], .bool true)]) = .ok exBson := by
  simp [toBson, bsonSizeM, bsonHeaderSize, bsonSize, bsonSizeL, toStr, Outcome.bind, bsonElemsM, bsonElem, bsonElemsL, bsonEntry,
    writeLittle_eq, lowBytes, exBson]

example : ∃ t, toBson (exMach true) (.obj [([0x6B], .uint 5)]) = .ok t ∧ Bson.Doc false t [([0x6B], .int 5)] := by
  have hv : Held (F := Nat) (.obj [([0x6B], .uint 5)]) := by simp [Held, HeldM]
  have hf : ∀ x ∈ floats (.obj [([0x6B], .uint 5)] : Json Nat), x < 2 ^ 64 := by simp [floats, floatsM]
  obtain ⟨t, h⟩ := (C131_refuses (exMach true) hv hf).2.2.2.mpr
    ⟨⟨_, rfl⟩, by simp [names, namesM], by simp [uints, uintsM]⟩
  have hl : t.length < 2 ^ 31 := by
    have e : toBson (exMach true) (.obj [([0x6B], .uint 5)]) = .ok [12, 0, 0, 0, 0x10, 0x6B, 0, 5, 0, 0, 0, 0] := by
      simp [toBson, bsonSizeM, bsonHeaderSize, bsonSize, Outcome.bind, bsonElemsM, bsonElem, bsonEntry, writeLittle_eq, lowBytes]
    rw [e] at h
    cases h
    decide
  exact ⟨t, h, C131_standard_partial _ hv hf h hl (by simp only [strings, stringsM, List.append_nil, List.mem_singleton]; rintro s rfl; exact utf8_ascii (by decide))⟩

/-- **C131** (what does not hold) Strings that are not UTF-8 are written all the same, and the bytes are no document
of the BSON specification; nothing is reported. -/
theorem C131_utf8_fails (m : Mach) : ∃ t, toBson m (.obj [([0x61], .str [0xFF])]) = .ok t ∧ ¬ ∃ ms, Bson.Doc false t ms := by
  refine ⟨[14, 0, 0, 0] ++ 0x02 :: ([0x61] ++ 0 :: [2, 0, 0, 0, 0xFF, 0, 0]), ?_, ?_⟩
  · simp [toBson, bsonSizeM, bsonHeaderSize, bsonSize, Outcome.bind, bsonElemsM, bsonElem, bsonEntry, writeLittle_eq, lowBytes]
  · exact (C130_accepts_fails (exMach true) true true (by decide)).2.2.1.2

/-- **C131** (what holds) Writing an object and reading the bytes, on any two machines, yields the object, whatever bytes the strings
hold, NaN and infinities included; only all integers are signed afterwards.  The strings must have less than 2^31 - 1 bytes
each; the document can have more.  Without `strict` what follows is left in the input. -/
theorem C131_read_back_partial (m m' : Mach) (strict ex : Bool) {v : Json Nat} {t r : Bytes} (hv : Held v) (ho : Ordered v)
    (hf : ∀ x ∈ floats v, x < 2 ^ 64) (hs : ∀ s ∈ texts v, s.length + 1 < 2 ^ 31) (h : toBson m v = .ok t)
    (hr : t.length ≤ m'.maxStr) (hr' : strict = true → r = []) :
    fromBson m' strict ex (t ++ r) = .ok (some (signed v), r) := by
  obtain ⟨⟨ms, rfl⟩, _⟩ := (C131_refuses m hv hf).2.2.2.mp ⟨t, h⟩
  obtain ⟨hd, _⟩ := toBson_doc true m hv hf h ⟨hs, .inl rfl⟩
  rw [fromBson_doc m' strict ex hd hr, finishRead_ok, if_neg fun h => h.2 (hr' h.1)]
  have := tidy_signed (.obj ms) ho
  rw [signed] at this ⊢
  rw [this]

/-- from a machine with the lowest byte first to one with the highest first -/
example : ∃ t, toBson (exMach true) (.obj [([0x6B], .float bitsNaN), ([0x6C], .uint 70000)]) = .ok t ∧
    fromBson (exMach false) true true t = .ok (some (.obj [([0x6B], .float bitsNaN), ([0x6C], .int 70000)]), []) := by
  have e : toBson (exMach true) (.obj [([0x6B], .float bitsNaN), ([0x6C], .uint 70000)]) =
      .ok [23, 0, 0, 0, 0x01, 0x6B, 0, 0, 0, 0, 0, 0, 0, 0xF8, 0x7F, 0x10, 0x6C, 0, 0x70, 0x11, 0x01, 0, 0] := by
    simp [toBson, bsonSizeM, bsonHeaderSize, bsonSize, Outcome.bind, bsonElemsM, bsonElem, bsonEntry, writeLittle_eq, lowBytes,
      bitsNaN]
  refine ⟨_, e, ?_⟩
  have := C131_read_back_partial (exMach true) (exMach false) true true
    (v := .obj [([0x6B], .float bitsNaN), ([0x6C], .uint 70000)]) (by simp [Held, HeldM])
    (by simp [Ordered, OrderedM, List.cons_lt_cons_iff]) (by simp [floats, floatsM, bitsNaN])
    (by simp [texts, textsM]) e (by decide) (r := []) (fun _ => rfl)
  rw [List.append_nil] at this
  rw [this]
  simp [signed, signedM]

/-- **C131** (what does not hold) What `to_bson` returns cannot always be read with `from_bson`: the length of a string of
2^31 - 1 bytes or more (up to 2^32 - 2) is written as a negative number, without a word, and refused when it is read. -/
theorem C131_read_back_fails (m m' : Mach) (strict : Bool) {k s : Bytes} (hk : 0 ∉ k) (hl : 2 ^ 31 - 1 ≤ s.length)
    (hl' : s.length < 2 ^ 32 - 1) (hm : k.length + s.length + 12 ≤ m'.maxStr) :
    ∃ t, toBson m (.obj [(k, .str s)]) = .ok t ∧ fromBson m' strict true t = .throws "parse_error.112" := by
  obtain ⟨n, h1, _⟩ := size_isInt (s.length + 1)
  have hn : n < 1 := by
    have h2 := h1.2.2.2.2
    have h3 := h1.2.2.2.1
    rw [little_lowBytes (by omega)] at h2
    omega
  have hneg := C130_length m' strict (sz := lowBytes 4 ((4 + (1 + k.length + 1 + (4 + s.length + 1) + 0) + 1) % 2 ^ 32))
    (t := []) (k := k) (r := s ++ [0, 0]) (lowBytes_length _ _) .nil hk h1 hn (by simp [lowBytes_length]; omega)
  refine ⟨_, ?_, hneg⟩
  rw [toBson, bsonSizeM, bsonHeaderSize, if_neg hk, bsonSize, bsonSizeM, bsonElemsM, bsonElem, bsonElemsM]
  simp [Outcome.bind, writeLittle_eq, bsonEntry]

/-- a string of 2^31 characters -/
example : ∃ t, toBson (exMach true) (.obj [([0x61], .str (List.replicate (2 ^ 31) 0x61))]) = .ok t ∧
    fromBson (exMach true) true true t = .throws "parse_error.112" :=
  C131_read_back_fails (exMach true) (exMach true) true (by decide) (by rw [List.length_replicate]; decide)
    (by rw [List.length_replicate]; decide) (by rw [List.length_replicate]; decide)

/-- **C131** (what holds) The value read back is equal to the one written exactly if there is no NaN in it (strings as
above). -/
theorem C131_equal_iff {L : Type} [LinearOrder L] (fo : FloatOrder Nat L) (m m' : Mach) (strict ex : Bool) {v : Json Nat}
    {t : Bytes} (hv : Held v) (ho : Ordered v) (hf : ∀ x ∈ floats v, x < 2 ^ 64)
    (hs : ∀ s ∈ texts v, s.length + 1 < 2 ^ 31) (h : toBson m v = .ok t) (hr : t.length ≤ m'.maxStr) :
    (∃ w, fromBson m' strict ex t = .ok (some w, []) ∧ eqV fo w v = true) ↔ ∀ x ∈ floats v, fo.place x ≠ none := by
  have := C131_read_back_partial m m' strict ex hv ho hf hs h hr (r := []) (fun _ => rfl)
  rw [List.append_nil] at this
  rw [this]
  have hu := ((C131_refuses m hv hf).2.2.2.mp ⟨t, h⟩).2.2
  rw [← eqV_signed fo v hu]
  exact ⟨fun ⟨w, e, h⟩ => by cases e; exact h, fun h => ⟨_, rfl, h⟩⟩

/-- an object with an unsigned 5 comes back with a signed 5, which is equal -/
example : let fo : FloatOrder Nat Nat := ⟨fun x => if x = bitsNaN then none else some x, Int.toNat, Int.toNat⟩
    ∃ w, fromBson (exMach true) true true [12, 0, 0, 0, 0x10, 0x6B, 0, 5, 0, 0, 0, 0] = .ok (some w, []) ∧
      eqV fo w (.obj [([0x6B], .uint 5)]) = true := by
  intro fo
  have e : toBson (exMach true) (.obj [([0x6B], .uint 5)]) = .ok [12, 0, 0, 0, 0x10, 0x6B, 0, 5, 0, 0, 0, 0] := by
    simp [toBson, bsonSizeM, bsonHeaderSize, bsonSize, Outcome.bind, bsonElemsM, bsonElem, bsonEntry, writeLittle_eq, lowBytes]
  rw [C131_equal_iff fo (exMach true) (exMach true) true true (by simp [Held, HeldM]) (by simp [Ordered, OrderedM])
    (by simp [floats, floatsM]) (by simp [texts, textsM]) e (by decide)]
  simp [floats, floatsM]

/-- **C131** (what holds) The bytes do not depend on the byte order of the machine. -/
theorem C131_portable (m m' : Mach) (v : Json Nat) (hv : Held v) (hf : ∀ x ∈ floats v, x < 2 ^ 64) :
    toBson m v = toBson m' v := by
  have h := C131_refuses m hv hf
  have h' := C131_refuses m' hv hf
  cases v with
  | obj ms =>
    rw [names, uints] at *
    by_cases hk : ∃ k ∈ namesM ms, 0 ∈ k
    · rw [h.2.1.mpr ⟨⟨ms, rfl⟩, hk⟩, h'.2.1.mpr ⟨⟨ms, rfl⟩, hk⟩]
    · have hk' : ∀ k ∈ namesM ms, 0 ∉ k := fun k h h0 => hk ⟨k, h, h0⟩
      by_cases hu : ∃ n ∈ uintsM ms, 2 ^ 63 ≤ n
      · rw [h.2.2.1.mpr ⟨⟨ms, rfl⟩, hk', hu⟩, h'.2.2.1.mpr ⟨⟨ms, rfl⟩, hk', hu⟩]
      · have hu' : ∀ n ∈ uintsM ms, n < 2 ^ 63 := fun n hn => by by_contra hc; exact hu ⟨n, hn, by omega⟩
        rw [Held] at hv; rw [floats] at hf
        obtain ⟨ts, h4, h5, _⟩ := bsonElemsM_doc true ms hv hf hk' hu'
        rw [toBson, toBson, h5, h4, h4]
        simp [Outcome.bind, writeLittle_eq]
  | _ => simp [toBson]

example : toBson (exMach true) (.obj [([0x6B], .float bitsNaN), ([0x6C], .uint 70000)]) =
    toBson (exMach false) (.obj [([0x6B], .float bitsNaN), ([0x6C], .uint 70000)]) :=
  C131_portable _ _ _ (by simp [Held, HeldM]) (by simp [floats, floatsM, bitsNaN])

end Verif.Json
