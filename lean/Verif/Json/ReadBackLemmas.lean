import Verif.Json.LayLemmas

/-!
# Lemmas about reading what has been written
-/

namespace Verif.Json
open Spec

namespace Spec
mutual
/-- what is read after a value has been written: an integer that is not negative is read as unsigned,
a floating-point number that is not finite was written as `null`, and in strings stands what was
written for them -/
noncomputable def mended (fl : Floats F) (h : Handler) : Json F → Json F
  | .null => .null
  | .bool b => .bool b
  | .int i => if 0 ≤ i then .uint i.toNat else .int i
  | .uint n => .uint n
  | .float x => if fl.finite x then .float x else .null
  | .str s => .str (utf8All (chars h s))
  | .arr xs => .arr (mendedL fl h xs)
  | .obj ms => .obj (mendedM fl h ms)
noncomputable def mendedL (fl : Floats F) (h : Handler) : List (Json F) → List (Json F)
  | [] => []
  | v :: vs => mended fl h v :: mendedL fl h vs
noncomputable def mendedM (fl : Floats F) (h : Handler) : List (Bytes × Json F) → List (Bytes × Json F)
  | [] => []
  | (k, v) :: ms => (utf8All (chars h k), mended fl h v) :: mendedM fl h ms
end

mutual
/-- what is read after a value with proper strings has been written -/
def canon (fl : Floats F) : Json F → Json F
  | .null => .null
  | .bool b => .bool b
  | .int i => if 0 ≤ i then .uint i.toNat else .int i
  | .uint n => .uint n
  | .float x => if fl.finite x then .float x else .null
  | .str s => .str s
  | .arr xs => .arr (canonL fl xs)
  | .obj ms => .obj (canonM fl ms)
def canonL (fl : Floats F) : List (Json F) → List (Json F)
  | [] => []
  | v :: vs => canon fl v :: canonL fl vs
def canonM (fl : Floats F) : List (Bytes × Json F) → List (Bytes × Json F)
  | [] => []
  | (k, v) :: ms => (k, canon fl v) :: canonM fl ms
end

mutual
/-- names in order, each once, in all objects: what `std::map` keeps -/
def Ordered : Json F → Prop
  | .arr xs => OrderedL xs
  | .obj ms => ms.Pairwise (fun a b => a.1 < b.1) ∧ OrderedM ms
  | .null | .bool _ | .int _ | .uint _ | .float _ | .str _ => True
def OrderedL : List (Json F) → Prop
  | [] => True
  | v :: vs => Ordered v ∧ OrderedL vs
def OrderedM : List (Bytes × Json F) → Prop
  | [] => True
  | (_, v) :: ms => Ordered v ∧ OrderedM ms
end

/-- floating-point numbers are written so that the same is read, and not as integers -/
def Exact (fl : Floats F) : Prop :=
  ∀ x, fl.finite x = true → fl.toFloat (fl.shortest x) = x ∧
    ∃ sg i f e, Sign sg ∧ IntPart i ∧ Frac f ∧ Exp e ∧ (f ≠ [] ∨ e ≠ []) ∧
      fl.shortest x = sg ++ i ++ f ++ e

/-- the indentations are white space -/
def WsInd : Option (Nat → Bytes) → Prop
  | none => True
  | some f => ∀ n, Ws (f n)

end Spec

/-! ## The text is one of the value -/

theorem chars_scalar (h : Handler) {s : Bytes} (hs : ∀ b ∈ s, b < 256) : ∀ c ∈ chars h s, Scalar c := by
  have hseg := parts_segs hs
  unfold chars
  intro c hc
  cases h with
  | strict =>
    rcases wanted_strict (gs := parts s) with ⟨h1, h2⟩ | ⟨cs, h1, h2⟩
    · rw [h2] at hc; simp at hc
    · rw [h2] at hc
      rw [h1] at hseg
      exact hseg.scalar (by simpa using hc)
  | replace =>
    rw [wanted_replace] at hc
    simp only [Option.getD_some, List.mem_map] at hc
    obtain ⟨g, hg, rfl⟩ := hc
    cases g with
    | none => unfold Scalar; simp
    | some c => exact hseg.scalar hg
  | ignore =>
    rw [wanted_ignore] at hc
    simp only [Option.getD_some, List.mem_filterMap, id] at hc
    obtain ⟨g, hg, rfl⟩ := hc
    exact hseg.scalar hg

/-- the parts of a block -/
theorem block_eq (op cl d : Nat) (ind : Option (Nat → Bytes)) (hi : WsInd ind) (x : Bytes)
    (items : List Bytes) :
    ∃ nl p w', Ws nl ∧ Ws p ∧ Ws w' ∧ block op cl ind d (x :: items) =
      op :: (nl ++ sepBy (0x2C :: nl) ((x :: items).map (p ++ ·)) ++ w' ++ [cl]) := by
  cases ind with
  | none =>
    refine ⟨[], [], [], by simp [Ws], by simp [Ws], by simp [Ws], ?_⟩
    simp [block]
  | some f =>
    refine ⟨[0x0A], f (d + 1), 0x0A :: f d, by simp [Ws], hi _, ?_, ?_⟩
    · intro c hc
      rcases List.mem_cons.mp hc with rfl | hc
      · simp
      · exact hi d c hc
    · simp [block]

theorem Spec.Ws.app {a b : Bytes} (ha : Ws a) (hb : Ws b) : Ws (a ++ b) := by
  intro c hc
  rcases List.mem_append.mp hc with h | h
  · exact ha c h
  · exact hb c h

theorem colon_eq (ind : Option (Nat → Bytes)) : ∃ w, Ws w ∧ colon ind = 0x3A :: w := by
  unfold colon
  split
  · exact ⟨[0x20], by simp [Ws], rfl⟩
  · exact ⟨[], by simp [Ws], rfl⟩

theorem integer_number (fl : Floats F) {i : Int} (h1 : -(2 ^ 63) ≤ i) (h2 : i < 2 ^ 64) :
    Number fl (integer i) (if 0 ≤ i then .uint i.toNat else .int i) := by
  unfold integer
  by_cases h : i < 0
  · rw [if_pos h, if_neg (by omega)]
    have := Number.int (fl := fl) (digits_intPart i.natAbs) (by rw [decimal_digits]; omega)
    rwa [decimal_digits, show -(i.natAbs : Int) = i by omega] at this
  · rw [if_neg h, if_pos (by omega)]
    have := Number.uint (fl := fl) (digits_intPart i.natAbs) (by rw [decimal_digits]; omega)
    rw [decimal_digits] at this
    rwa [show i.toNat = i.natAbs by omega]

mutual
theorem lay_value (fl : Floats F) (hfl : Exact fl) (h : Handler) (ascii : Bool)
    (ind : Option (Nat → Bytes)) (hi : WsInd ind) : ∀ (v : Json F) (d : Nat), Held v →
      Value fl (layV fl h ascii ind d v) (mended fl h v)
  | .null, d, _ => by rw [layV, mended]; exact .null
  | .bool true, d, _ => by rw [layV, mended, if_pos rfl]; exact .true
  | .bool false, d, _ => by rw [layV, mended, if_neg (by simp)]; exact .false
  | .int i, d, hh => by
    rw [Held] at hh
    rw [layV, mended]
    exact .num (integer_number fl hh.1 (by omega))
  | .uint n, d, hh => by
    rw [Held] at hh
    rw [layV, mended]
    have := integer_number fl (i := (n : Int)) (by omega) (by omega)
    rw [if_pos (by omega), Int.toNat_natCast] at this
    exact .num this
  | .float x, d, _ => by
    rw [layV, mended]
    by_cases hx : fl.finite x = true
    · rw [if_pos hx, if_pos hx]
      obtain ⟨e, sg, i, f, ex, h1, h2, h3, h4, h5, h6⟩ := hfl x hx
      have := Number.float (fl := fl) h1 h2 h3 h4 (by
        rcases h5 with h | h
        · exact .inl h
        · exact .inr (.inl h)) (by rw [← h6, e]; exact hx)
      rw [← h6, e] at this
      exact .num this
    · rw [if_neg hx, if_neg hx]
      exact .null
  | .str s, d, hh => by
    rw [Held] at hh
    rw [layV, mended, quoted]
    exact .str (escapedAll_strChars ascii (chars_scalar h hh))
  | .arr [], d, _ => by
    rw [layV, mended, layL, mendedL]
    exact .emptyArr (w := []) (by simp [Ws])
  | .arr (v :: vs), d, hh => by
    rw [Held] at hh
    rw [layV, mended, layL]
    obtain ⟨nl, p, w', h1, h2, h3, e⟩ := block_eq 0x5B 0x5D d ind hi (layV fl h ascii ind (d + 1) v)
      (layL fl h ascii ind (d + 1) vs)
    rw [e]
    have := lay_elements fl hfl h ascii ind hi (v :: vs) (d + 1) (by simp) hh h1 h2 h3
    rw [layL] at this
    exact .arr this
  | .obj [], d, _ => by
    rw [layV, mended, layM, mendedM]
    exact .emptyObj (w := []) (by simp [Ws])
  | .obj ((k, v) :: ms), d, hh => by
    rw [Held] at hh
    rw [layV, mended, layM]
    obtain ⟨nl, p, w', h1, h2, h3, e⟩ := block_eq 0x7B 0x7D d ind hi
      (quoted h ascii k ++ colon ind ++ layV fl h ascii ind (d + 1) v) (layM fl h ascii ind (d + 1) ms)
    rw [e]
    have := lay_members fl hfl h ascii ind hi ((k, v) :: ms) (d + 1) (by simp) hh h1 h2 h3
    rw [layM] at this
    exact .obj this
theorem lay_elements (fl : Floats F) (hfl : Exact fl) (h : Handler) (ascii : Bool)
    (ind : Option (Nat → Bytes)) (hi : WsInd ind) : ∀ (vs : List (Json F)) (d : Nat), vs ≠ [] →
      HeldL vs → ∀ {nl p w' : Bytes}, Ws nl → Ws p → Ws w' →
      Elements fl (nl ++ sepBy (0x2C :: nl) ((layL fl h ascii ind d vs).map (p ++ ·)) ++ w')
        (mendedL fl h vs)
  | [], d, hn, _, _, _, _, _, _, _ => absurd rfl hn
  | [v], d, _, hh, nl, p, w', h1, h2, h3 => by
    rw [HeldL] at hh
    have := lay_value fl hfl h ascii ind hi v d hh.1
    rw [layL, layL, mendedL, mendedL]
    have := Elements.one (fl := fl) (h1.app h2) this h3
    simpa [sepBy] using this
  | v :: v' :: vs, d, _, hh, nl, p, w', h1, h2, h3 => by
    rw [HeldL] at hh
    have hv := lay_value fl hfl h ascii ind hi v d hh.1
    have ih := lay_elements fl hfl h ascii ind hi (v' :: vs) d (by simp) hh.2 h1 h2 h3
    rw [layL, mendedL, List.map_cons, sepBy_cons_ne _ _ (by simp [layL])]
    have := Elements.cons (fl := fl) (h1.app h2) hv (w' := []) (by simp [Ws]) ih
    simpa using this
theorem lay_members (fl : Floats F) (hfl : Exact fl) (h : Handler) (ascii : Bool)
    (ind : Option (Nat → Bytes)) (hi : WsInd ind) : ∀ (ms : List (Bytes × Json F)) (d : Nat), ms ≠ [] →
      HeldM ms → ∀ {nl p w' : Bytes}, Ws nl → Ws p → Ws w' →
      Members fl (nl ++ sepBy (0x2C :: nl) ((layM fl h ascii ind d ms).map (p ++ ·)) ++ w')
        (mendedM fl h ms)
  | [], d, hn, _, _, _, _, _, _, _ => absurd rfl hn
  | [(k, v)], d, _, hh, nl, p, w', h1, h2, h3 => by
    rw [HeldM] at hh
    have hv := lay_value fl hfl h ascii ind hi v d hh.2.1
    have hk := escapedAll_strChars ascii (chars_scalar h hh.1)
    obtain ⟨w, hw, e⟩ := colon_eq ind
    rw [layM, layM, mendedM, mendedM, e, quoted]
    have := Members.one (fl := fl) (h1.app h2) hk (w1 := []) (by simp [Ws]) hw hv h3
    simpa [sepBy] using this
  | (k, v) :: (k', v') :: ms, d, _, hh, nl, p, w', h1, h2, h3 => by
    rw [HeldM] at hh
    have hv := lay_value fl hfl h ascii ind hi v d hh.2.1
    have hk := escapedAll_strChars ascii (chars_scalar h hh.1)
    have ih := lay_members fl hfl h ascii ind hi ((k', v') :: ms) d (by simp) hh.2.2 h1 h2 h3
    obtain ⟨w, hw, e⟩ := colon_eq ind
    rw [layM, mendedM, List.map_cons, sepBy_cons_ne _ _ (by simp [layM]), quoted, e]
    have := Members.cons (fl := fl) (h1.app h2) hk (w1 := []) (by simp [Ws]) hw hv (w' := [])
      (by simp [Ws]) ih
    simpa using this
end

/-! ## Proper strings -/

theorem Spec.Utf8.lt {s : Bytes} (h : Utf8 s) : ∀ b ∈ s, b < 256 := by
  obtain ⟨cs, h1, rfl⟩ := h
  exact utf8All_lt h1

theorem chars_utf8 (h : Handler) {s : Bytes} (hs : Utf8 s) : utf8All (chars h s) = s := by
  obtain ⟨cs, h1, rfl⟩ := hs
  unfold chars
  rw [parts_eq (segs_utf8 h1), wanted_map_some]
  rfl

theorem none_parts {s : Bytes} (hs : ∀ b ∈ s, b < 256) : none ∉ parts s ↔ Utf8 s := by
  constructor
  · intro h
    have hseg := parts_segs hs
    obtain ⟨cs, h1, h2⟩ := hseg.utf8 h
    refine ⟨cs, fun c hc => hseg.scalar (h1 ▸ ?_), h2⟩
    simpa using hc
  · rintro ⟨cs, h1, rfl⟩
    rw [parts_eq (segs_utf8 h1)]
    simp

mutual
theorem mended_canon (fl : Floats F) (h : Handler) : ∀ (v : Json F), (∀ s ∈ strings v, Utf8 s) →
    mended fl h v = canon fl v
  | .null, _ | .bool _, _ | .int _, _ | .uint _, _ | .float _, _ => by rw [mended, canon]
  | .str s, hs => by rw [mended, canon, chars_utf8 h (hs s (by simp [strings]))]
  | .arr xs, hs => by rw [mended, canon, mendedL_canon fl h xs (by simpa [strings] using hs)]
  | .obj ms, hs => by rw [mended, canon, mendedM_canon fl h ms (by simpa [strings] using hs)]
theorem mendedL_canon (fl : Floats F) (h : Handler) : ∀ (vs : List (Json F)),
    (∀ s ∈ stringsL vs, Utf8 s) → mendedL fl h vs = canonL fl vs
  | [], _ => by rw [mendedL, canonL]
  | v :: vs, hs => by
    rw [stringsL] at hs
    rw [mendedL, canonL, mended_canon fl h v fun s hx => hs s (List.mem_append.mpr (.inl hx)),
      mendedL_canon fl h vs fun s hx => hs s (List.mem_append.mpr (.inr hx))]
theorem mendedM_canon (fl : Floats F) (h : Handler) : ∀ (ms : List (Bytes × Json F)),
    (∀ s ∈ stringsM ms, Utf8 s) → mendedM fl h ms = canonM fl ms
  | [], _ => by rw [mendedM, canonM]
  | (k, v) :: ms, hs => by
    rw [stringsM] at hs
    rw [mendedM, canonM, chars_utf8 h (hs k (by simp)),
      mended_canon fl h v fun s hx => hs s (by simp [hx]),
      mendedM_canon fl h ms fun s hx => hs s (by simp [hx])]
end

/-! ## The order of members -/

theorem setKey_last {k : Bytes} {v : Json F} : ∀ {acc : List (Bytes × Json F)},
    (∀ x ∈ acc, x.1 < k) → setKey k v acc = acc ++ [(k, v)]
  | [], _ => rfl
  | (k', v') :: acc, h => by
    have h1 : keyLt k' k = true := keyLt_iff.2 (h (k', v') (by simp))
    have h2 : keyLt k k' ≠ true := fun h2 => by
      have := keyLt_trans h1 h2
      rw [keyLt_irrefl] at this
      cases this
    rw [setKey, if_neg h2, if_pos h1, setKey_last fun x hx => h x (by simp [hx])]
    rfl

theorem mem_canonM {fl : Floats F} : ∀ {ms : List (Bytes × Json F)} {x : Bytes × Json F},
    x ∈ canonM fl ms → ∃ y ∈ ms, y.1 = x.1
  | [], x, h => by rw [canonM] at h; cases h
  | (k, v) :: ms, x, h => by
    rw [canonM] at h
    rcases List.mem_cons.mp h with rfl | h
    · exact ⟨(k, v), by simp, rfl⟩
    · obtain ⟨y, hy, e⟩ := mem_canonM h
      exact ⟨y, by simp [hy], e⟩

mutual
theorem tidy_canon (fl : Floats F) : ∀ (v : Json F), Ordered v → tidy (canon fl v) = canon fl v
  | .null, _ | .bool _, _ | .uint _, _ | .str _, _ => by rw [canon, tidy]
  | .int i, _ => by rw [canon]; split <;> rw [tidy]
  | .float x, _ => by rw [canon]; split <;> rw [tidy]
  | .arr xs, h => by rw [Ordered] at h; rw [canon, tidy, tidyL_canon fl xs h]
  | .obj ms, h => by
    rw [Ordered] at h
    rw [canon, tidy, tidyM_canon fl ms [] h.1 h.2 (by simp)]
    simp
theorem tidyL_canon (fl : Floats F) : ∀ (vs : List (Json F)), OrderedL vs →
    tidyL (canonL fl vs) = canonL fl vs
  | [], _ => by rw [canonL, tidyL]
  | v :: vs, h => by
    rw [OrderedL] at h
    rw [canonL, tidyL, tidy_canon fl v h.1, tidyL_canon fl vs h.2]
theorem tidyM_canon (fl : Floats F) : ∀ (ms acc : List (Bytes × Json F)),
    ms.Pairwise (fun a b => a.1 < b.1) → OrderedM ms → (∀ x ∈ acc, ∀ y ∈ ms, x.1 < y.1) →
    tidyM acc (canonM fl ms) = acc ++ canonM fl ms
  | [], acc, _, _, _ => by rw [canonM, tidyM, List.append_nil]
  | (k, v) :: ms, acc, hs, ho, hacc => by
    rw [OrderedM] at ho
    rw [List.pairwise_cons] at hs
    rw [canonM, tidyM, tidy_canon fl v ho.1, setKey_last fun x hx => hacc x hx (k, v) (by simp),
      tidyM_canon fl ms _ hs.2 ho.2]
    · simp
    · intro x hx y hy
      rcases List.mem_append.mp hx with hx | hx
      · exact hacc x hx y (by simp [hy])
      · simp only [List.mem_cons, List.not_mem_nil, or_false] at hx
        subst hx
        exact hs.1 y hy
end

end Verif.Json
