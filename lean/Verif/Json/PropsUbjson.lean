import Verif.Json.UbjWrite
import Verif.Json.PropsBson

/-!
# Properties of the UBJSON format
-/

namespace Verif.Json
open Spec Spec.Ubj

/-! ## Texts -/

theorem noops_nil : Noops [] := by simp [Noops]

theorem getNoop_cons {c : Nat} {s : Bytes} (h : c ≠ 0x4E) : getNoop (c :: s) = (some c, s) := by
  rw [getNoop, dropNoop_cons h]; rfl

mutual
theorem Spec.Ubj.Body.lax {A O : Nat} {l : Bool} : ∀ {c : Nat} {t : Bytes} {v : Json Nat}, Body A O l c t v → Body A O true c t v
  | _, _, _, .true => .true
  | _, _, _, .false => .false
  | _, _, _, .null => .null
  | _, _, _, .uint h => .uint h
  | _, _, _, .int h h' => .int h h'
  | _, _, _, .single h h' => .single h h'
  | _, _, _, .double h h' => .double h h'
  | _, _, _, .char h => .char h
  | _, _, _, .str h => .str (textLax h)
  | _, _, _, .arr h h' => .arr (Spec.Ubj.Elems.lax h) h'
  | _, _, _, .arrCount h h' h2 => .arrCount h h' (Spec.Ubj.Elems.lax h2)
  | _, _, _, .arrType h1 h2 h3 _ h5 h6 h7 h8 => .arrType h1 h2 h3 (.inl rfl) h5 h6 h7 (Spec.Ubj.Elems.lax h8)
  | _, _, _, .arrNoops h1 h2 h3 => .arrNoops h1 h2 h3
  | _, _, _, .arrZero _ h1 h2 h3 h4 => .arrZero rfl h1 h2 h3 (Spec.Ubj.Elems.lax h4)
  | _, _, _, .obj h h' => .obj (Spec.Ubj.Pairs.lax h) h'
  | _, _, _, .objCount h h' h2 => .objCount h h' (Spec.Ubj.Pairs.lax h2)
  | _, _, _, .objType h1 h2 h3 _ h5 h6 h7 => .objType h1 h2 h3 (.inl rfl) h5 h6 (Spec.Ubj.Pairs.lax h7)
  | _, _, _, .objZero _ h1 h2 h3 h4 => .objZero rfl h1 h2 h3 (Spec.Ubj.Pairs.lax h4)
theorem Spec.Ubj.Elem.lax {A O : Nat} {l : Bool} : ∀ {ty : Option Nat} {t : Bytes} {v : Json Nat}, Elem A O l ty t v →
    Elem A O true ty t v
  | _, _, _, .own h h' => .own h (Spec.Ubj.Body.lax h')
  | _, _, _, .shared h => .shared (Spec.Ubj.Body.lax h)
theorem Spec.Ubj.Elems.lax {A O : Nat} {l : Bool} : ∀ {ty : Option Nat} {t : Bytes} {vs : List (Json Nat)}, Elems A O l ty t vs →
    Elems A O true ty t vs
  | _, _, _, .nil => .nil
  | _, _, _, .cons h h' => .cons (Spec.Ubj.Elem.lax h) (Spec.Ubj.Elems.lax h')
theorem Spec.Ubj.Pairs.lax {A O : Nat} {l : Bool} : ∀ {o : Bool} {ty : Option Nat} {t : Bytes} {ms : List (Bytes × Json Nat)},
    Pairs A O l o ty t ms → Pairs A O true o ty t ms
  | _, _, _, _, .nil => .nil
  | _, _, _, _, .cons h1 h2 h3 h4 h5 => .cons h1 h2 (textLax h3) (Spec.Ubj.Elem.lax h4) (Spec.Ubj.Pairs.lax h5)
theorem textLax {l : Bool} {t s : Bytes} : Text l t s → Text true t s
  | .mk h1 h2 h3 _ => .mk h1 (h2.imp id fun h => ⟨rfl, h.2⟩) h3 (.inl rfl)
end

theorem item_inv {A O c : Nat} {lax : Bool} {t : Bytes} {v : Json Nat} (h : Item A O lax (c :: t) v) (hc : c ≠ 0x4E) :
    Body A O lax c t v := by
  generalize e : c :: t = s at h
  generalize ht : (none : Option Nat) = ty at h
  cases h with
  | @own ns t' c' _ h1 h2 =>
    cases ns with
    | nil => simp only [List.nil_append, List.cons.injEq] at e; rw [e.1, e.2]; exact h2
    | cons n ns =>
      simp only [List.cons_append, List.cons.injEq] at e
      exact absurd (e.1.trans (h1 n (by simp))) hc

theorem arr_type_inv {A O c : Nat} {r : Bytes} {v : Json Nat} (h : Body A O false 0x5B (0x24 :: c :: r) v) :
    c ∈ markers ∨ c = 0x4E := by
  have g : getNoop (0x24 :: c :: r) = (some 0x24, c :: r) := getNoop_cons (by decide)
  generalize e : 0x24 :: c :: r = s at h g
  generalize hc : 0x5B = c' at h
  cases h with
  | arr h1 h2 =>
    obtain ⟨c', q, e', h3, _⟩ := elems_first h2 h1 []
    rw [e'] at g
    simp only [Prod.mk.injEq, Option.some.injEq] at g
    exact absurd g.1 h3
  | arrCount h1 h2 h3 =>
    cases h1 with
    | @mk ns ns' l c' _ h4 h5 hn =>
      rw [List.append_assoc, List.cons_append, getNoop_append _ h4 (by decide)] at g
      simp at g
  | @arrType ns h t c' vs h1 h2 h3 h4 h5 h6 h7 h8 =>
    rw [getNoop_append _ h1 (by decide)] at g
    simp only [Prod.mk.injEq, List.cons.injEq, true_and] at g
    rw [← g.1]
    exact .inl (h4.resolve_left (by simp))
  | arrNoops h1 h2 h3 =>
    rw [getNoop_append _ h1 (by decide)] at g
    simp only [Prod.mk.injEq, List.cons.injEq, true_and] at g
    exact .inr g.1.symm
  | arrZero h => cases h
  | int h1 h2 => subst hc; cases h2
  | _ => cases hc

/-! ## From the reader to `from_ubjson` -/

theorem ubj_item (m : Mach) (ex : Bool) {fuel : Nat} {t r : Bytes} {v : Json Nat} (h : Item m.maxArr m.maxObj true t v)
    (hr : t.length ≤ m.maxStr) (hf : t.length + 1 ≤ fuel) :
    ubjV m ex fuel (getNoop (t ++ r)).1 (getNoop (t ++ r)).2 = .ok (events v, r) := by
  generalize hty : (none : Option Nat) = ty at h
  cases h with
  | @own ns t c _ h1 h2 =>
    rw [List.append_assoc, List.cons_append, getNoop_append _ h1 (marker_ne h2.marker).1]
    simp only [List.length_append, List.length_cons] at hr hf
    exact ubjV_reads m ex fuel t.length (by omega) (by omega) c t v r h2 (Nat.le_refl _)

theorem fromUbj_item (m : Mach) (strict ex : Bool) {t r : Bytes} {v : Json Nat} (h : Item m.maxArr m.maxObj true t v)
    (hr : t.length ≤ m.maxStr) :
    fromUbj m strict ex (t ++ r) = finishRead strict ex (.ok (events v, if strict then dropNoop r else r)) := by
  rw [fromUbj, ubj_item m ex h hr (by simp; omega)]
  rfl

theorem ubj_some {m : Mach} {ex : Bool} {fuel : Nat} {s r : Bytes} {evs : List (Event Nat)} (hA : m.maxArr < 2 ^ 63)
    (hO : m.maxObj < 2 ^ 63) (hs : ∀ b ∈ s, b < 256) (h : ubjV m ex fuel (getNoop s).1 (getNoop s).2 = .ok (evs, r)) :
    ∃ t w, s = t ++ r ∧ Item m.maxArr m.maxObj true t w ∧ evs = events w := by
  have hv := ubjV_sound hA hO ex fuel
  rcases getNoop_cases s with ⟨_, e⟩ | ⟨ns, c, q, h1, h2, rfl, e⟩
  · rw [e, hv.1] at h; cases h
  · rw [e] at h
    obtain ⟨t, w, rfl, hb, rfl⟩ := hv.2 c q r evs (fun b hb => hs b (by simp [hb])) h
    exact ⟨ns ++ c :: t, w, by simp, .own h1 hb, rfl⟩

theorem fromUbj_some {m : Mach} {strict ex : Bool} {s r : Bytes} {v : Json Nat} (hA : m.maxArr < 2 ^ 63)
    (hO : m.maxObj < 2 ^ 63) (hs : ∀ b ∈ s, b < 256) (h : fromUbj m strict ex s = .ok (some v, r)) :
    ∃ t r' w, s = t ++ r' ∧ Item m.maxArr m.maxObj true t w ∧ v = tidy w ∧
      (if strict then Noops r' ∧ r = [] else r' = r) := by
  rw [fromUbj] at h
  cases e : ubjV m ex (s.length + 2) (getNoop s).1 (getNoop s).2 with
  | running => rw [e] at h; cases h
  | threw k => rw [e] at h; cases h
  | fail id => rw [e] at h; cases ex <;> simp [finishRead, Rd.bind] at h
  | ok p =>
    obtain ⟨evs, r'⟩ := p
    obtain ⟨t, w, e', hi, rfl⟩ := ubj_some hA hO hs e
    rw [e, Rd.ok_bind, finishRead_ok] at h
    refine ⟨t, r', w, e', hi, ?_⟩
    cases strict with
    | false =>
      simp only [Bool.false_eq_true, false_and, ↓reduceIte, Outcome.ok.injEq, Prod.mk.injEq, Option.some.injEq] at h
      exact ⟨h.1.symm, by simp [h.2]⟩
    | true =>
      simp only [true_and, ↓reduceIte] at h
      by_cases hr : dropNoop r' = []
      · rw [if_neg (by simp [hr])] at h
        simp only [Outcome.ok.injEq, Prod.mk.injEq, Option.some.injEq] at h
        refine ⟨h.1.symm, ?_⟩
        rw [if_pos rfl]
        refine ⟨?_, by rw [← h.2, hr]⟩
        obtain ⟨ns, h1, h2⟩ := dropNoop_spec r'
        rw [hr, List.append_nil] at h2
        rw [h2]; exact h1
      · rw [if_pos hr] at h
        cases ex <;> simp at h

theorem dropNoop_noops {ns : Bytes} (h : Noops ns) : dropNoop ns = [] := by
  have := dropNoop_append [] h
  rwa [List.append_nil] at this

/-! ## Reading -/

/-- **C132** (what holds) The value read from a text of bytes that is read to its end: there is one exactly if the text
is a value of the UBJSON specification whose types have a counterpart in JSON, then bytes 'N' – or differs
from one only in string lengths below 0 (which count as 0), strings that are not UTF-8, and types of
containers that are 0 (for "no type") or, the container being empty, anything; and it is this value, of repeated names in an
object the last.  Sizes written in front of a container must not be larger than `max_size()`.
Whether exceptions are allowed makes no difference. -/
theorem C132_reads_iff (m : Mach) (ex : Bool) {s : Bytes} (hA : m.maxArr < 2 ^ 63) (hO : m.maxObj < 2 ^ 63)
    (hs : ∀ b ∈ s, b < 256) (hr : s.length ≤ m.maxStr) (v : Json Nat) :
    fromUbj m true ex s = .ok (some v, []) ↔
      ∃ t ns w, s = t ++ ns ∧ Noops ns ∧ Item m.maxArr m.maxObj true t w ∧ v = tidy w := by
  constructor
  · intro h
    obtain ⟨t, r, w, e, hi, hv, hn⟩ := fromUbj_some hA hO hs h
    exact ⟨t, r, w, e, hn.1, hi, hv⟩
  · rintro ⟨t, ns, w, rfl, hn, hi, rfl⟩
    rw [fromUbj_item m true ex hi (by simp at hr; omega), if_pos rfl, dropNoop_noops hn, finishRead_ok]
    simp

/-- **C132** (what holds) Without `strict`, the bytes after the value are left in the input, whatever they are. -/
theorem C132_rest_iff (m : Mach) (ex : Bool) {s : Bytes} (hA : m.maxArr < 2 ^ 63) (hO : m.maxObj < 2 ^ 63)
    (hs : ∀ b ∈ s, b < 256) (hr : s.length ≤ m.maxStr) (v : Json Nat) (r : Bytes) :
    fromUbj m false ex s = .ok (some v, r) ↔ ∃ t w, s = t ++ r ∧ Item m.maxArr m.maxObj true t w ∧ v = tidy w := by
  constructor
  · intro h
    obtain ⟨t, r', w, e, hi, hv, hn⟩ := fromUbj_some hA hO hs h
    obtain rfl : r' = r := hn
    exact ⟨t, w, e, hi, hv⟩
  · rintro ⟨t, w, rfl, hi, rfl⟩
    rw [fromUbj_item m false ex hi (by simp at hr; omega), finishRead_ok]
    simp

/-- **C132** (what holds) Every value of the UBJSON specification whose types have a counterpart in JSON is read, unless a size in
it exceeds `max_size()`. -/
theorem C132_standard (m : Mach) (strict ex : Bool) {t r : Bytes} {v : Json Nat} (h : Item m.maxArr m.maxObj false t v)
    (hr : t.length ≤ m.maxStr) (hn : strict = true → r = []) :
    fromUbj m strict ex (t ++ r) = .ok (some (tidy v), r) := by
  rw [fromUbj_item m strict ex h.lax hr, finishRead_ok]
  cases strict with
  | false => simp
  | true => rw [hn rfl]; simp [dropNoop]

/-- for the examples: `{"a": [-2, 300], "b": [true]}`, with 'N' here and there -/
def exUbj : Bytes :=
  [0x4E] ++ 0x7B :: (([] ++ ([0x69, 1, 0x61] ++ (([] ++ 0x5B :: ([0x4E] ++ 0x24 :: 0x49 ::
    (([0x4E] ++ 0x23 :: ([0x4E] ++ 0x69 :: [2])) ++ ([0xFF, 0xFE] ++ ([1, 44] ++ []))))) ++
      ([0x4E] ++ ([0x55, 1, 0x62] ++ (([] ++ 0x5B :: ((([] ++ 0x54 :: []) ++ []) ++ ([] ++ [0x5D]))) ++ [])))))) ++ ([0x4E] ++ [0x7D]))

theorem exUbj_item : Item (2 ^ 60) (2 ^ 60) false exUbj
    (.obj [([0x61], .arr [.int (-2), .int 300]), ([0x62], .arr [.bool true])]) := by
  refine .own (by simp [Noops]) (.obj ?_ (by simp [Noops]))
  refine .cons noops_nil (.inr rfl) ?_ ?_ (.cons (by simp [Noops]) (.inl rfl) ?_ ?_ .nil)
  · exact .mk (c := 0x69) (l := [1]) (i := 1) (.int8 ⟨rfl, by decide, by decide, by decide, by decide⟩) (.inl rfl) (by decide)
      (.inr (utf8_ascii (by decide)))
  · refine .own noops_nil (.arrType (by simp [Noops]) ?_ (by decide) (.inr (by decide)) (by decide) (by decide) (by decide) ?_)
    · exact .mk (by simp [Noops]) (by simp [Noops]) (.int8 ⟨rfl, by decide, by decide, by decide, by decide⟩)
    · exact .cons (.shared (.int (by decide) (.int16 ⟨rfl, by decide, by decide, by decide, by decide⟩)))
        (.cons (.shared (.int (by decide) (.int16 ⟨rfl, by decide, by decide, by decide, by decide⟩))) .nil)
  · exact .mk (c := 0x55) (l := [1]) (i := 1) (.uint8 (by decide)) (.inl rfl) (by decide) (.inr (utf8_ascii (by decide)))
  · exact .own noops_nil (.arr (.cons (.own noops_nil .true) .nil) noops_nil)

example : fromUbj (exMach true) false true (exUbj ++ [0xFF]) =
    .ok (some (.obj [([0x61], .arr [.int (-2), .int 300]), ([0x62], .arr [.bool true])]), [0xFF]) :=
  C132_standard (exMach true) false true exUbj_item (by decide) nofun

example : fromUbj (exMach false) true false (exUbj ++ [0x4E, 0x4E]) =
    .ok (some (.obj [([0x61], .arr [.int (-2), .int 300]), ([0x62], .arr [.bool true])]), []) := by
  rw [C132_reads_iff _ _ (by decide) (by decide) (by decide) (by decide)]
  exact ⟨exUbj, [0x4E, 0x4E], _, rfl, by simp [Noops], exUbj_item.lax, rfl⟩

example : fromUbj (exMach true) false true (exUbj ++ [0x4E, 0]) =
    .ok (some (.obj [([0x61], .arr [.int (-2), .int 300]), ([0x62], .arr [.bool true])]), [0x4E, 0]) := by
  rw [C132_rest_iff _ _ (by decide) (by decide) (by decide) (by decide)]
  exact ⟨exUbj, _, rfl, exUbj_item.lax, rfl⟩

/-- **C132** (what does not hold) Texts that are no values of the UBJSON specification are read as values: a string with a
length below 0; a string that is not UTF-8; arrays of "type" 0, and empty ones of a type that does not exist. -/
theorem C132_accepts_fails (m : Mach) (strict ex : Bool) (hr : 10 ≤ m.maxStr) :
    (fromUbj m strict ex [0x53, 0x69, 0xFF] = .ok (some (.str []), []) ∧
      ¬ ∃ w, Item m.maxArr m.maxObj false [0x53, 0x69, 0xFF] w) ∧
    (fromUbj m strict ex [0x53, 0x69, 1, 0xFF] = .ok (some (.str [0xFF]), []) ∧
      ¬ ∃ w, Item m.maxArr m.maxObj false [0x53, 0x69, 1, 0xFF] w) ∧
    (1 ≤ m.maxArr → fromUbj m strict ex [0x5B, 0x24, 0, 0x23, 0x69, 1, 0x54] = .ok (some (.arr [.bool true]), []) ∧
      ¬ ∃ w, Item m.maxArr m.maxObj false [0x5B, 0x24, 0, 0x23, 0x69, 1, 0x54] w) ∧
    (fromUbj m strict ex [0x5B, 0x24, 0x78, 0x23, 0x69, 0] = .ok (some (.arr []), []) ∧
      ¬ ∃ w, Item m.maxArr m.maxObj false [0x5B, 0x24, 0x78, 0x23, 0x69, 0] w) := by
  have read : ∀ {c : Nat} {t : Bytes} {v : Json Nat}, Body m.maxArr m.maxObj true c t v → t.length ≤ 9 → tidy v = v →
      fromUbj m strict ex (c :: t) = .ok (some v, []) := by
    intro c t v h hl hv
    have := fromUbj_item m strict ex (r := []) (.own (ns := []) noops_nil h) (by simp; omega)
    rw [List.append_nil, List.nil_append] at this
    rw [this, finishRead_ok]
    cases strict <;> simp [dropNoop, hv]
  have strInv : ∀ {b : Nat} {r : Bytes} {w : Json Nat}, Body m.maxArr m.maxObj false 0x53 (0x69 :: b :: r) w → b = r.length ∧ Utf8 r := by
    intro b r w h
    generalize e : 0x69 :: b :: r = t at h
    generalize hc : 0x53 = c at h
    cases h with
    | str h =>
      cases h with
      | @mk c l s i h1 h2 h3 h4 =>
        simp only [List.cons.injEq] at e
        obtain ⟨rfl, e⟩ := e
        cases h1 with
        | int8 h =>
          match l, h.1 with
          | [b'], _ =>
            simp only [List.singleton_append, List.cons.injEq] at e
            obtain ⟨rfl, rfl⟩ := e
            refine ⟨?_, h4.resolve_left (by simp)⟩
            have h5 := h.2.2.2.2
            have h6 := h.2.1 b (by simp)
            have h7 := h2.resolve_right (by simp)
            have h8 := h.2.2.2.1
            simp only [Nat.reduceMul, Nat.reduceSub, big_one] at h5 h8
            omega
    | int h1 h2 => subst hc; cases h2
    | _ => cases hc
  have count : ∀ {n : Nat}, n < 128 → Count ([] ++ 0x23 :: ([] ++ 0x69 :: [n])) n := by
    intro n hn
    refine .mk noops_nil noops_nil (.int8 ⟨rfl, by simp; omega, by omega, by simp; omega, ?_⟩)
    rw [big_one]; simp only [Nat.reduceMul]; omega
  refine ⟨⟨?_, ?_⟩, ⟨?_, ?_⟩, fun h1 => ⟨?_, ?_⟩, ⟨?_, ?_⟩⟩
  · refine read (.str (.mk (l := [0xFF]) (i := -1) (.int8 ⟨rfl, by decide, by decide, by decide, by decide⟩)
      (.inr ⟨rfl, by decide, rfl⟩) (by decide) (.inl rfl))) (by decide) rfl
  · rintro ⟨w, h⟩
    exact absurd (strInv (item_inv h (by decide))).1 (by decide)
  · refine read (.str (.mk (l := [1]) (i := 1) (.int8 ⟨rfl, by decide, by decide, by decide, by decide⟩)
      (.inl rfl) (by decide) (.inl rfl))) (by decide) rfl
  · rintro ⟨w, h⟩
    exact not_utf8 (strInv (item_inv h (by decide))).2
  · exact read (.arrZero (ns := []) (t := ([] ++ 0x54 :: []) ++ []) (vs := [.bool true]) rfl noops_nil (count (by decide)) h1
      (.cons (.own noops_nil .true) .nil)) (by decide) rfl
  · rintro ⟨w, h⟩
    exact absurd (arr_type_inv (item_inv h (by decide))) (by decide)
  · exact read (.arrType (ns := []) (t := []) (vs := []) noops_nil (count (by decide)) (Nat.zero_le _) (.inl rfl) (by decide) (by decide)
      (by decide) .nil) (by decide) rfl
  · rintro ⟨w, h⟩
    exact absurd (arr_type_inv (item_inv h (by decide))) (by decide)

example : fromUbj (exMach true) true true [0x53, 0x69, 0xFF] = .ok (some (.str []), []) :=
  (C132_accepts_fails (exMach true) true true (by decide)).1.1

/-- **C132** (what holds) Values of other types than those that have a counterpart in JSON are an error, `parse_error.112`. -/
theorem C132_unsupported (m : Mach) (strict : Bool) {c : Nat} {ns r : Bytes} (hn : Noops ns) (hc : c ≠ 0x4E)
    (h : c ∉ markers) : fromUbj m strict true (ns ++ c :: r) = .throws "parse_error.112" := by
  rw [fromUbj, getNoop_append _ hn hc, ubjV]
  simp only [markers, List.mem_cons, List.not_mem_nil, or_false, not_or] at h
  repeat' rw [if_neg (by omega)]
  rfl

/-- **C132** (what does not hold) The mapping is not "complete in the sense that any UBJSON value can be converted to a JSON
value": numbers of high precision – type 'H', then a text with the digits – are an error. -/
theorem C132_complete_fails (m : Mach) (strict : Bool) {t s : Bytes} (_ : Text false t s) :
    fromUbj m strict true (0x48 :: t) = .throws "parse_error.112" :=
  C132_unsupported m strict (ns := []) noops_nil (by decide) (by decide)

/-- the number 12 of type 'H' -/
example : fromUbj (exMach true) true true [0x48, 0x55, 2, 0x31, 0x32] = .throws "parse_error.112" :=
  C132_complete_fails (exMach true) true (t := [0x55, 2, 0x31, 0x32]) (s := [0x31, 0x32])
    (Text.mk (c := 0x55) (l := [2]) (i := 2) (.uint8 (by decide)) (.inl rfl) (by decide) (.inr (utf8_ascii (by decide))))

theorem elems_nulls {A O : Nat} {lax : Bool} : ∀ n, Elems A O lax (some 0x5A) [] (List.replicate n .null)
  | 0 => .nil
  | n + 1 => .cons (t := []) (ts := []) (.shared .null) (elems_nulls n)

theorem tidyL_nulls : ∀ n, tidyL (List.replicate n (.null : Json Nat)) = List.replicate n .null
  | 0 => by simp [tidyL]
  | n + 1 => by rw [List.replicate_succ, tidyL, tidyL_nulls n, tidy]

/-- **C132** (what does not hold) Reading is not "linear in the size of the input": nine bytes suffice for an array of any
number of elements below 2^31. -/
theorem C132_linear_fails (m : Mach) (strict ex : Bool) (hr : 9 ≤ m.maxStr) {n : Nat} (h : n < 2 ^ 31) (hn : n ≤ m.maxArr) :
    ∃ s : Bytes, s.length = 9 ∧ (∀ b ∈ s, b < 256) ∧ Item m.maxArr m.maxObj false s (.arr (List.replicate n .null)) ∧
      fromUbj m strict ex s = .ok (some (.arr (List.replicate n .null)), []) := by
  have hi := write_uint_isInt m (w := 4) (n := n) (by simp) (by simpa using h)
  have hl := hi.1
  have hit : Item m.maxArr m.maxObj false ([] ++ 0x5B :: ([] ++ 0x24 :: 0x5A :: (([] ++ 0x23 :: ([] ++ 0x6C ::
      writeNumber m false 4 n)) ++ []))) (.arr (List.replicate n .null)) :=
    .own noops_nil (.arrType noops_nil (.mk noops_nil noops_nil (by rw [List.length_replicate]; exact .int32 hi))
      (by rw [List.length_replicate]; exact hn) (.inr (by decide)) (by decide) (by decide) (by decide) (elems_nulls n))
  refine ⟨_, ?_, ?_, hit, ?_⟩
  · simp [hl]
  · intro b hb
    simp only [List.nil_append, List.append_nil, List.mem_cons] at hb
    rcases hb with rfl | rfl | rfl | rfl | rfl | hb
    all_goals first | decide | exact hi.2.1 b hb
  · have := C132_standard m strict ex (r := []) hit (by simp [hl]; omega) fun _ => rfl
    rw [List.append_nil] at this
    rw [this, tidy, tidyL_nulls]

/-- two thousand million elements -/
example : ∃ s : Bytes, s.length = 9 ∧
    fromUbj (exMach true) true true s = .ok (some (.arr (List.replicate 2000000000 .null)), []) := by
  obtain ⟨s, h, _, _, h'⟩ := C132_linear_fails (exMach true) true true (by decide) (n := 2000000000) (by decide) (by decide)
  exact ⟨s, h, h'⟩

/-- **C132** (what holds) With `strict`, anything after the value and bytes 'N' is an error, `parse_error.110`. -/
theorem C132_trailing (m : Mach) {t ns r : Bytes} {v : Json Nat} {c : Nat} (h : Item m.maxArr m.maxObj true t v)
    (hr : t.length ≤ m.maxStr) (hn : Noops ns) (hc : c ≠ 0x4E) :
    fromUbj m true true (t ++ (ns ++ c :: r)) = .throws "parse_error.110" ∧
    ∃ r', fromUbj m true false (t ++ (ns ++ c :: r)) = .ok (none, r') := by
  rw [fromUbj_item m true true h hr, fromUbj_item m true false h hr, if_pos rfl, dropNoop_append _ hn, dropNoop_cons hc,
    finishRead_ok, finishRead_ok]
  simp

example : fromUbj (exMach true) true true (exUbj ++ [0x4E, 0x5A]) = .throws "parse_error.110" :=
  (C132_trailing (exMach true) exUbj_item.lax (by decide) (ns := [0x4E]) (r := []) (c := 0x5A) (by simp [Noops]) (by decide)).1

/-- **C132** (what holds) Of a value no beginning is read as a value: if the input ends too early, `parse_error.110` or
`parse_error.113` is thrown; without exceptions, a value of type `discarded` is returned. -/
theorem C132_truncated (m : Mach) (strict : Bool) {p q : Bytes} {v : Json Nat} (hs : ∀ b ∈ p ++ q, b < 256)
    (h : Item m.maxArr m.maxObj true (p ++ q) v) (hr : (p ++ q).length ≤ m.maxStr) (hq : q ≠ []) :
    (fromUbj m strict true p = .throws "parse_error.110" ∨ fromUbj m strict true p = .throws "parse_error.113") ∧
    fromUbj m strict false p = .ok (none, []) := by
  have hp : ∀ b ∈ p, b < 256 := fun b hb => hs b (by simp [hb])
  have key : ∀ ex, ubjV m ex (p.length + 2) (getNoop p).1 (getNoop p).2 = .fail 110 ∨
      ubjV m ex (p.length + 2) (getNoop p).1 (getNoop p).2 = .fail 113 := by
    intro ex
    have h1 := ubj_item m ex (fuel := (p ++ q).length + 2) (r := []) h hr (by omega)
    rw [List.append_nil] at h1
    have h2 := (ubjV_goes m ex q (p.length + 2) ((p ++ q).length + 2) (by simp)).own p
    have h3 := (ubjV_ends m ex p.length (p.length + 2) p.length (by omega) (Nat.le_refl _)).own hp (Nat.le_refl _)
    rw [h1] at h2
    cases e : ubjV m ex (p.length + 2) (getNoop p).1 (getNoop p).2 with
    | running => rw [e] at h3; exact h3.1.elim
    | threw k => rw [e] at h2; cases h2
    | fail id =>
      rw [e] at h2
      rcases h2 with h2 | h2 | h2
      · exact .inl (by rw [h2])
      · exact .inr (by rw [h2])
      · cases h2
    | ok x =>
      obtain ⟨a, r⟩ := x
      rw [e] at h2
      simp only [UbjGoes, Rd.ok.injEq, Prod.mk.injEq] at h2
      have := congrArg List.length h2.2
      rw [List.length_append] at this
      have : 0 < q.length := List.length_pos_iff.mpr hq
      simp at *
      omega
  rw [fromUbj, fromUbj]
  constructor
  · rcases key true with h | h
    · rw [h]; exact .inl rfl
    · rw [h]; exact .inr rfl
  · rcases key false with h | h <;> rw [h] <;> rfl

/-- the value without its last byte -/
example : fromUbj (exMach false) true false exUbj.dropLast = .ok (none, []) :=
  (C132_truncated (exMach false) true (p := exUbj.dropLast) (q := [0x7D]) (by decide) exUbj_item.lax (by decide) (by decide)).2

/-- **C132** (what does not hold) `parse_error.110` is not thrown for every input that ends prematurely: for one that ends where
the size of a container should be, it is `parse_error.113`, said to be for strings. -/
theorem C132_end_fails (m : Mach) (strict : Bool) {ns : Bytes} (hn : Noops ns) :
    fromUbj m strict true ([0x5B, 0x23] ++ ns) = .throws "parse_error.113" ∧
    Item m.maxArr m.maxObj false ([0x5B, 0x23] ++ ns ++ [0x55, 0]) (.arr []) := by
  constructor
  · have g : getNoop ns = (none, []) := by rw [getNoop, dropNoop_noops hn]; rfl
    have e1 : ubjHead m (0x23 :: ns) = .fail 113 := by
      rw [ubjHead, getNoop_cons (by decide)]
      simp only
      rw [if_neg (by decide), if_pos trivial, ubjSize, g]
      rfl
    rw [fromUbj, List.cons_append, getNoop_cons (by decide), ubjV]
    branch
    rw [ubjArr, List.singleton_append, e1]
    rfl
  · have := Elem.own (A := m.maxArr) (O := m.maxObj) (lax := false) (ns := []) noops_nil (.arrCount (vs := [])
      (Count.mk (ns := []) (ns' := ns) (l := [0]) (c := 0x55) (n := 0) noops_nil hn (.uint8 (by decide))) (Nat.zero_le _) .nil)
    simpa using this

example : fromUbj (exMach true) true true [0x5B, 0x23, 0x4E] = .throws "parse_error.113" :=
  (C132_end_fails (exMach true) true (ns := [0x4E]) (by simp [Noops])).1

/-- **C132** (what holds) An array with a size below 0 is refused: -1 counts as "no size" and is then found wanting, with
`parse_error.112`; all others count as too large, with `out_of_range.408`. -/
theorem C132_negative (m : Mach) (strict : Bool) (hA : m.maxArr < 2 ^ 63) {c : Nat} {l r : Bytes} {i : Int} (h : Num c l i)
    (hi : i < 0) :
    fromUbj m strict true (0x5B :: 0x23 :: c :: (l ++ r)) = .throws (if i = -1 then "parse_error.112" else "out_of_range.408") := by
  have e1 : ubjHead m (0x23 :: c :: (l ++ r)) = .ok (⟨(i % 2 ^ 64).toNat, 0, l.getLast?⟩, r) := by
    have := ubjSize_read m (ns := []) noops_nil h r
    rw [List.nil_append] at this
    rw [ubjHead, getNoop_cons (by decide)]
    simp only
    rw [if_neg (by decide), if_pos trivial, this]
    rfl
  have hrg := h.range
  rw [fromUbj, getNoop_cons (by decide), ubjV]
  branch
  rw [ubjArr, e1, Rd.ok_bind]
  by_cases h1 : i = -1
  · subst h1
    rw [if_neg (by simp [ubjNone]), h.minus_one, ubjUntil, if_neg (by simp)]
    simp only
    have : ubjV m true ((0x5B :: 0x23 :: c :: (l ++ r)).length + 1) (some 0xFF) r = .fail 112 := by
      rw [ubjV]
      repeat' rw [if_neg (by decide)]
    rw [this]
    rfl
  · rw [if_neg h1, if_pos (by simp only [ubjNone]; omega), if_pos (by simp only; omega)]
    rfl

example : fromUbj (exMach true) true true [0x5B, 0x23, 0x69, 0xFF, 0x5D] = .throws "parse_error.112" :=
  (C132_negative (exMach true) true (by decide) (l := [0xFF]) (i := -1) (r := [0x5D])
    (.int8 ⟨rfl, by decide, by decide, by decide, by decide⟩) (by decide)).trans (by rw [if_pos rfl])

/-- **C132** (what does not hold) `allow_exceptions = false` does not keep exceptions away: a size beyond `max_size()` throws
`out_of_range.408` all the same. -/
theorem C132_quiet_fails (m : Mach) (strict ex : Bool) {n : Nat} (hn : m.maxArr < n) {c : Nat} {l r : Bytes} (h : Num c l n) :
    fromUbj m strict ex (0x5B :: 0x23 :: c :: (l ++ r)) = .throws "out_of_range.408" := by
  have e1 : ubjHead m (0x23 :: c :: (l ++ r)) = .ok (⟨((n : Int) % 2 ^ 64).toNat, 0, l.getLast?⟩, r) := by
    have := ubjSize_read m (ns := []) noops_nil h r
    rw [List.nil_append] at this
    rw [ubjHead, getNoop_cons (by decide)]
    simp only
    rw [if_neg (by decide), if_pos trivial, this]
    rfl
  have hrg := h.range
  rw [fromUbj, getNoop_cons (by decide), ubjV]
  branch
  rw [ubjArr, e1, Rd.ok_bind, if_pos (by simp only [ubjNone]; omega), if_pos (by simp only; omega)]
  rfl

example : fromUbj (exMach true) true false [0x5B, 0x23, 0x4C, 0x7F, 0, 0, 0, 0, 0, 0, 0] = .throws "out_of_range.408" :=
  C132_quiet_fails (exMach true) true false (n := 0x7F00000000000000) (by decide) (l := [0x7F, 0, 0, 0, 0, 0, 0, 0]) (r := [])
    (.int64 ⟨rfl, by decide, by decide, by decide, by decide⟩)

/-- **C132** (what holds) Reading always comes to an end, and to a defined one: a value, or `parse_error` 110, 112 or 113;
or `out_of_range.408` if the input gives a size beyond `max_size()`; or `std::length_error`, which needs a string
beyond `max_size()` that is longer than the input if exceptions are allowed. -/
theorem C132_terminates (m : Mach) (strict ex : Bool) {s : Bytes} (hA : m.maxArr < 2 ^ 63) (hO : m.maxObj < 2 ^ 63)
    (hs : ∀ b ∈ s, b < 256) :
    (∃ v r, fromUbj m strict ex s = .ok (v, r) ∧ (ex = true → v ≠ none)) ∨
    (ex = true ∧ ∃ k ∈ ["parse_error.110", "parse_error.112", "parse_error.113"], fromUbj m strict ex s = .throws k) ∨
    fromUbj m strict ex s = .throws "out_of_range.408" ∨
    (fromUbj m strict ex s = .throws "std::length_error" ∧ m.maxStr < 2 ^ 64 ∧ (ex = true → m.maxStr < s.length)) := by
  have h := ((ubjV_ends m ex s.length (s.length + 2) s.length (by omega) (Nat.le_refl _)).own hs (Nat.le_refl _)).1
  rw [fromUbj]
  cases e : ubjV m ex (s.length + 2) (getNoop s).1 (getNoop s).2 with
  | running => rw [e] at h; exact h.elim
  | fail id =>
    rw [e] at h
    cases ex with
    | false => exact .inl ⟨none, [], rfl, nofun⟩
    | true =>
      refine .inr (.inl ⟨rfl, errorKind id, ?_, rfl⟩)
      rcases h with rfl | rfl | rfl <;> simp [errorKind]
  | threw k =>
    rw [e] at h
    rcases h with ⟨rfl, h⟩ | ⟨rfl, h, h'⟩
    · exact .inr (.inr (.inl rfl))
    · exact .inr (.inr (.inr ⟨rfl, h, h'⟩))
  | ok p =>
    obtain ⟨evs, r⟩ := p
    obtain ⟨t, w, _, _, rfl⟩ := ubj_some hA hO hs e
    rw [Rd.ok_bind, finishRead_ok]
    by_cases hc : strict = true ∧ (if strict = true then dropNoop r else r) ≠ []
    · rw [if_pos hc]
      cases ex with
      | false => exact .inl ⟨none, _, rfl, nofun⟩
      | true => exact .inr (.inl ⟨rfl, _, List.mem_cons_self, rfl⟩)
    · rw [if_neg hc]
      exact .inl ⟨_, _, rfl, fun _ => nofun⟩

/-- any number of nested arrays -/
example (strict : Bool) (n : Nat) : fromUbj (exMach true) strict true (List.replicate n 0x5B) ≠ .diverges := by
  rcases C132_terminates (exMach true) strict true (s := List.replicate n 0x5B) (by decide) (by decide)
    (fun b hb => by rw [List.eq_of_mem_replicate hb]; decide) with ⟨v, r, h, _⟩ | ⟨_, k, _, h⟩ | h | ⟨h, _⟩ <;> rw [h] <;> simp

/-! ## Writing -/

/-- **C133** (what holds) What is written and what is refused: a value with an unsigned integer of 2^63 or more, at any
depth, is refused with `out_of_range.407`, everything else is written; with a size, with size and type, or without both.
(Strings and containers of 2^63 elements do not exist.) -/
theorem C133_refuses (m : Mach) {cnt ty : Bool} (hct : ty = true → cnt = true) {v : Json Nat} (hv : Held v)
    (hs : ∀ s ∈ strings v, s.length < 2 ^ 63) (ha : ∀ n ∈ arrSizes v, n < 2 ^ 63) (ho : ∀ n ∈ objSizes v, n < 2 ^ 63) :
    (toUbj m cnt ty v = .throws "out_of_range.407" ↔ ∃ n ∈ uints v, 2 ^ 63 ≤ n) ∧
    ((∃ t, toUbj m cnt ty v = .ok t) ↔ ∀ n ∈ uints v, n < 2 ^ 63) := by
  have := ubjW_refuses m hct v hv hs ha ho true
  rw [toUbj]
  by_cases h : ∃ n ∈ uints v, 2 ^ 63 ≤ n
  · rw [if_pos h] at this
    rw [this]
    refine ⟨by simp [h], by simpa using h⟩
  · rw [if_neg h] at this
    obtain ⟨b, e⟩ := this
    rw [e]
    refine ⟨by simpa using h, by simpa using h⟩

example : toUbj (exMach true) true true (.arr [.null, .obj [([0x61], .uint (2 ^ 63))]]) = .throws "out_of_range.407" :=
  (C133_refuses (exMach true) (fun _ => rfl) (by simp [Held, HeldL, HeldM]) (by simp [strings, stringsL, stringsM])
    (by simp [arrSizes, arrSizesL, arrSizesM]) (by simp [objSizes, objSizesL, objSizesM])).1.mpr
    ⟨2 ^ 63, by simp [uints, uintsL, uintsM], Nat.le_refl _⟩

/-- **C133** (what does not hold) Not every value can be written: "types" without sizes (`use_type` without `use_size`) end
in an assertion for every array and every object that is not empty; what is left are the values that
are written as without types. -/
theorem C133_type_fails (m : Mach) (v : Json Nat) :
    (((∃ x xs, v = .arr (x :: xs)) ∨ ∃ x xs, v = .obj (x :: xs)) → toUbj m false true v = .assertFail) ∧
    (¬ ((∃ x xs, v = .arr (x :: xs)) ∨ ∃ x xs, v = .obj (x :: xs)) → toUbj m false true v = toUbj m false false v) := by
  rw [toUbj, toUbj]
  match v with
  | .null | .bool _ | .int _ | .uint _ | .float _ | .str _ => simp [ubjW]
  | .arr [] | .obj [] => simp [ubjW, ubjShared, ubjWL, ubjWM, Outcome.bind]
  | .arr (x :: xs) | .obj (x :: xs) => simp [ubjW, ubjShared, Outcome.bind]

example : toUbj (exMach true) false true (.arr [.null]) = .assertFail :=
  (C133_type_fails _ _).1 (.inl ⟨.null, [], rfl⟩)

theorem toUbj_item (A O : Nat) (lax : Bool) (m : Mach) {cnt ty : Bool} (hct : ty = true → cnt = true) {v : Json Nat} (hv : Held v)
    (h : UbjFits A O lax cnt (floats v) (uints v) (strings v) (arrSizes v) (objSizes v)) :
    ∃ t, toUbj m cnt ty v = .ok t ∧ Item A O lax t (byteUnsigned v) := by
  obtain ⟨b, e, hb⟩ := ubjW_body hct v hv h
  exact ⟨[] ++ ubjPrefix v :: b, by rw [toUbj, e]; rfl, .own noops_nil hb⟩

/-- **C133** (what holds) What `to_ubjson` returns is a value of the UBJSON specification, the value written – the integers from 128 to
255 unsigned, all others signed – provided the strings are UTF-8. -/
theorem C133_standard_partial (m : Mach) {cnt ty : Bool} (hct : ty = true → cnt = true) {v : Json Nat} {t : Bytes} (hv : Held v)
    (hf : ∀ x ∈ floats v, x < 2 ^ 64) (hs : ∀ s ∈ strings v, s.length < 2 ^ 63 ∧ Utf8 s) (ha : ∀ n ∈ arrSizes v, n < 2 ^ 63)
    (ho : ∀ n ∈ objSizes v, n < 2 ^ 63) (h : toUbj m cnt ty v = .ok t) :
    Item (2 ^ 63) (2 ^ 63) false t (byteUnsigned v) := by
  have hu := (C133_refuses m hct hv (fun s h => (hs s h).1) ha ho).2.mp ⟨t, h⟩
  obtain ⟨t', e, hi⟩ := toUbj_item (2 ^ 63) (2 ^ 63) false m hct hv
    ⟨hf, hu, fun s h => ⟨(hs s h).1, .inr (hs s h).2⟩, fun _ n h => ⟨ha n h, by have := ha n h; omega⟩,
      fun _ n h => ⟨ho n h, by have := ho n h; omega⟩⟩
  rw [h] at e
  cases e
  exact hi

/-- `[1000, -1000]` with size and type, with size, and without both -/
example : toUbj (exMach true) true true (.arr [.int 1000, .int (-1000)]) =
      .ok [0x5B, 0x24, 0x49, 0x23, 0x69, 2, 3, 0xE8, 0xFC, 0x18] ∧
    toUbj (exMach true) true false (.arr [.int 1000, .int (-1000)]) =
      .ok [0x5B, 0x23, 0x69, 2, 0x49, 3, 0xE8, 0x49, 0xFC, 0x18] ∧
    toUbj (exMach true) false false (.arr [.int 1000, .int (-1000)]) =
      .ok [0x5B, 0x49, 3, 0xE8, 0x49, 0xFC, 0x18, 0x5D] := by decide

example : Item (2 ^ 63) (2 ^ 63) false [0x5B, 0x24, 0x55, 0x23, 0x69, 2, 0xC8, 0xFF] (.arr [.uint 200, .uint 255]) := by
  have := C133_standard_partial (exMach true) (cnt := true) (ty := true) (fun _ => rfl) (v := .arr [.int 200, .int 255])
    (t := [0x5B, 0x24, 0x55, 0x23, 0x69, 2, 0xC8, 0xFF])
    (by simp [Held, HeldL]) (by simp [floats, floatsL]) (by simp [strings, stringsL]) (by simp [arrSizes, arrSizesL])
    (by simp [objSizes, objSizesL]) (by decide)
  simpa [byteUnsigned, byteUnsignedL] using this

/-- **C133** (what does not hold) Strings that are not UTF-8 are written all the same, and the bytes are no value
of the UBJSON specification; nothing is reported. -/
theorem C133_utf8_fails (m : Mach) (cnt ty : Bool) : toUbj m cnt ty (.str [0xFF]) = .ok [0x53, 0x69, 1, 0xFF] ∧
    ¬ ∃ w, Item m.maxArr m.maxObj false [0x53, 0x69, 1, 0xFF] w := by
  refine ⟨?_, ?_⟩
  · simp [toUbj, ubjW, ubjUint, writeNumber_eq, lowBytes, Outcome.bind]
  · exact (C132_accepts_fails ⟨true, m.maxArr, m.maxObj, 10⟩ true true (Nat.le_refl _)).2.1.2

/-- **C133** (what holds) Writing a value and reading the bytes, on any two machines, yields the value, whatever bytes
the strings hold, NaN and infinities included, with a size, with size and type, or without both; only the integers from 128 to 255
are unsigned afterwards, and all others signed.  The sizes that are written must not exceed `max_size()` of the machine that reads
them.  Without `strict` what follows is left in the input. -/
theorem C133_read_back (m m' : Mach) (strict ex : Bool) {cnt ty : Bool} (hct : ty = true → cnt = true) {v : Json Nat} {t r : Bytes}
    (hv : Held v) (hd : Ordered v) (hf : ∀ x ∈ floats v, x < 2 ^ 64) (hs : ∀ s ∈ strings v, s.length < 2 ^ 63)
    (ha : ∀ n ∈ arrSizes v, n < 2 ^ 63 ∧ (cnt = true → n ≤ m'.maxArr))
    (ho : ∀ n ∈ objSizes v, n < 2 ^ 63 ∧ (cnt = true → n ≤ m'.maxObj))
    (h : toUbj m cnt ty v = .ok t) (hr : t.length ≤ m'.maxStr) (hn : strict = true → Noops r) :
    fromUbj m' strict ex (t ++ r) = .ok (some (byteUnsigned v), if strict then [] else r) := by
  have hu := (C133_refuses m hct hv hs (fun n h => (ha n h).1) (fun n h => (ho n h).1)).2.mp ⟨t, h⟩
  obtain ⟨t', e, hi⟩ := toUbj_item m'.maxArr m'.maxObj true m hct hv
    ⟨hf, hu, fun s h => ⟨hs s h, .inl rfl⟩, fun c n h => ⟨(ha n h).1, (ha n h).2 c⟩, fun c n h => ⟨(ho n h).1, (ho n h).2 c⟩⟩
  rw [h] at e
  cases e
  rw [fromUbj_item m' strict ex hi hr, finishRead_ok, tidy_byteUnsigned v hd]
  cases strict with
  | false => simp
  | true => simp [dropNoop_noops (hn rfl)]

/-- from a machine with the lowest byte first to one with the highest first -/
example : ∃ t, toUbj (exMach true) true true (.obj [([0x6B], .float bitsNaN), ([0x6C], .int (-70000))]) = .ok t ∧
    fromUbj (exMach false) true true t = .ok (some (.obj [([0x6B], .float bitsNaN), ([0x6C], .int (-70000))]), []) := by
  have h : toUbj (exMach true) true true (.obj [([0x6B], .float bitsNaN), ([0x6C], .int (-70000))]) =
    .ok [0x7B, 0x23, 0x69, 2, 0x69, 1, 0x6B, 0x44, 0x7F, 0xF8, 0, 0, 0, 0, 0, 0, 0x69, 1, 0x6C, 0x6C, 0xFF, 0xFE, 0xEE, 0x90] := by
    decide
  refine ⟨_, h, ?_⟩
  have := C133_read_back (exMach true) (exMach false) true true (cnt := true) (ty := true) (fun _ => rfl) (r := [])
    (by simp [Held, HeldM]) (by simp [Ordered, OrderedM, List.cons_lt_cons_iff]) (by simp [floats, floatsM, bitsNaN])
    (by simp [strings, stringsM]) (by simp [arrSizes, arrSizesM]) (by simp [objSizes, objSizesM, exMach]) h (by decide)
    (fun _ => noops_nil)
  simpa [byteUnsigned, byteUnsignedM] using this

/-- **C133** (what holds) The value read back is equal to the one written exactly if there is no NaN in it. -/
theorem C133_equal_iff {L : Type} [LinearOrder L] (fo : FloatOrder Nat L) (m m' : Mach) (strict ex : Bool) {cnt ty : Bool}
    (hct : ty = true → cnt = true) {v : Json Nat} {t : Bytes}
    (hv : Held v) (hd : Ordered v) (hf : ∀ x ∈ floats v, x < 2 ^ 64) (hs : ∀ s ∈ strings v, s.length < 2 ^ 63)
    (ha : ∀ n ∈ arrSizes v, n < 2 ^ 63 ∧ (cnt = true → n ≤ m'.maxArr))
    (ho : ∀ n ∈ objSizes v, n < 2 ^ 63 ∧ (cnt = true → n ≤ m'.maxObj))
    (h : toUbj m cnt ty v = .ok t) (hr : t.length ≤ m'.maxStr) :
    (∃ w, fromUbj m' strict ex t = .ok (some w, []) ∧ eqV fo w v = true) ↔ ∀ x ∈ floats v, fo.place x ≠ none := by
  have := C133_read_back m m' strict ex hct hv hd hf hs ha ho h hr (r := []) (fun _ => noops_nil)
  rw [List.append_nil] at this
  rw [this]
  have hu := (C133_refuses m hct hv hs (fun n h => (ha n h).1) (fun n h => (ho n h).1)).2.mp ⟨t, h⟩
  rw [← eqV_byteUnsigned fo v hu]
  constructor
  · rintro ⟨w, e, h⟩
    cases strict <;> cases e <;> exact h
  · intro h
    exact ⟨_, by cases strict <;> rfl, h⟩

/-- 1.5 comes back equal, a NaN does not -/
example : let fo : FloatOrder Nat Nat := ⟨fun x => if x = bitsNaN then none else some x, Int.toNat, Int.toNat⟩
    (∃ w, fromUbj (exMach true) true true [0x44, 0x3F, 0xF8, 0, 0, 0, 0, 0, 0] = .ok (some w, []) ∧
      eqV fo w (.float 0x3FF8000000000000) = true) ∧
    ¬ ∃ w, fromUbj (exMach true) true true [0x44, 0x7F, 0xF8, 0, 0, 0, 0, 0, 0] = .ok (some w, []) ∧
      eqV fo w (.float bitsNaN) = true := by
  intro fo
  have h1 : toUbj (exMach true) false false (.float 0x3FF8000000000000) = .ok [0x44, 0x3F, 0xF8, 0, 0, 0, 0, 0, 0] := by decide
  have h2 : toUbj (exMach true) false false (.float bitsNaN) = .ok [0x44, 0x7F, 0xF8, 0, 0, 0, 0, 0, 0] := by decide
  rw [C133_equal_iff fo _ _ _ _ (by simp) (by simp [Held]) (by simp [Ordered]) (by simp [floats]) (by simp [strings])
      (by simp [arrSizes]) (by simp [objSizes]) h1 (by decide),
    C133_equal_iff fo _ _ _ _ (by simp) (by simp [Held]) (by simp [Ordered]) (by simp [floats, bitsNaN]) (by simp [strings])
      (by simp [arrSizes]) (by simp [objSizes]) h2 (by decide)]
  simp [floats, fo, bitsNaN]

/-- **C133** (what holds) The bytes do not depend on the byte order of the machine. -/
theorem C133_portable (m m' : Mach) (cnt ty : Bool) (v : Json Nat) : toUbj m cnt ty v = toUbj m' cnt ty v :=
  ubjW_portable m m' cnt ty true v

/-- **C133** (what holds) Integers take the fewest bytes possible: no type and bytes of the UBJSON specification for the same
integer are shorter, and both kinds of integers have the same bytes. -/
theorem C133_shortest (m : Mach) (cnt ty : Bool) {i : Int} {c : Nat} {b : Bytes} (h : Num c b i) :
    ∃ t, toUbj m cnt ty (.int i) = .ok t ∧ t.length ≤ (c :: b).length ∧ (0 ≤ i → toUbj m cnt ty (.uint i.toNat) = .ok t) := by
  have hr := h.range
  obtain ⟨c', b', h1, h2, _, h3, e⟩ := ubjSint_spec hr.1 hr.2
  refine ⟨c' :: b', by rw [toUbj, ubjW, e]; rfl, ?_, fun h0 => ?_⟩
  · have hl : ∀ {w : Nat}, Ubj.IsInt w b i → b.length = w ∧ -2 ^ (8 * w - 1) ≤ i ∧ i < 2 ^ (8 * w - 1) :=
      fun h => ⟨h.1, h.2.2.1, h.2.2.2.1⟩
    have hw : b'.length ≤ b.length := by
      have hb : b.length = 1 ∧ -128 ≤ i ∧ i ≤ 255 ∨ b.length = 2 ∧ -32768 ≤ i ∧ i ≤ 32767 ∨
          b.length = 4 ∧ -2147483648 ≤ i ∧ i ≤ 2147483647 ∨ b.length = 8 := by
        cases h with
        | uint8 h => simp; omega
        | int8 h => have := hl h; simp only [Nat.reduceMul, Nat.reduceSub] at this; omega
        | int16 h => have := hl h; simp only [Nat.reduceMul, Nat.reduceSub] at this; omega
        | int32 h => have := hl h; simp only [Nat.reduceMul, Nat.reduceSub] at this; omega
        | int64 h => have := hl h; simp only [Nat.reduceMul, Nat.reduceSub] at this; omega
      have := ubjSint_length m i b' (e m false)
      omega
    simpa using hw
  · rw [toUbj, ubjW, ubj_same m h0 hr.2, e]
    rfl

/-- 200 takes two bytes, with type 'U' -/
example : toUbj (exMach true) false false (.uint 200) = .ok [0x55, 200] ∧ Num 0x49 [0, 200] 200 ∧
    toUbj (exMach true) false false (.int (-200)) = .ok [0x49, 0xFF, 0x38] :=
  ⟨by decide, .int16 ⟨rfl, by decide, by decide, by decide, by decide⟩, by decide⟩

end Verif.Json
