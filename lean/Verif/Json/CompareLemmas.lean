import Verif.Json.CompareModel

/-!
# Lemmas on the comparisons
-/

namespace Verif.Json

variable {F L : Type} [LinearOrder L]

theorem bytesLt_iff : ∀ {s t : Bytes}, bytesLt s t = true ↔ s < t
  | [], [] => by simp [bytesLt]
  | [], _ :: _ => by simp [bytesLt]
  | _ :: _, [] => by simp [bytesLt]
  | a :: s, b :: t => by
    have ih := @bytesLt_iff s t
    simp only [bytesLt, List.cons_lt_cons_iff]
    by_cases h : a < b
    · simp [h]
    · by_cases h' : b < a
      · simp [h, h']; omega
      · simp [h, h', ih]; omega

theorem bytesLt_asymm {s t : Bytes} (h : bytesLt s t = true) : bytesLt t s = false := by
  rw [Bool.eq_false_iff]
  intro h'
  rw [bytesLt_iff] at h h'
  exact List.lt_irrefl s (List.lt_trans h h')

theorem bytesLt_irrefl (s : Bytes) : bytesLt s s = false := by
  rw [Bool.eq_false_iff]
  intro h
  rw [bytesLt_iff] at h
  exact List.lt_irrefl s h

theorem bytesLt_total {s t : Bytes} (h : bytesLt s t = false) (h' : bytesLt t s = false) : s = t := by
  rw [Bool.eq_false_iff, Ne, bytesLt_iff] at h h'
  exact List.le_antisymm (List.not_lt.mp h') (List.not_lt.mp h)

namespace FloatOrder

theorem eq_iff (fo : FloatOrder F L) (x y : F) :
    fo.eq x y = true ↔ ∃ a, fo.place x = some a ∧ fo.place y = some a := by
  unfold FloatOrder.eq
  rcases hx : fo.place x with _ | a <;> rcases hy : fo.place y with _ | b
  · simp
  · simp
  · simp
  · simp only [beq_iff_eq, Option.some.injEq]
    exact ⟨fun h => ⟨a, rfl, h.symm⟩, fun ⟨_, h1, h2⟩ => h1.trans h2.symm⟩

theorem lt_iff (fo : FloatOrder F L) (x y : F) :
    fo.lt x y = true ↔ ∃ a b, fo.place x = some a ∧ fo.place y = some b ∧ a < b := by
  unfold FloatOrder.lt
  rcases hx : fo.place x with _ | a <;> rcases hy : fo.place y with _ | b <;> simp

theorem eq_symm (fo : FloatOrder F L) (x y : F) : fo.eq x y = fo.eq y x := by
  rw [Bool.eq_iff_iff, eq_iff, eq_iff]
  simp only [and_comm]

theorem lt_asymm (fo : FloatOrder F L) {x y : F} (h : fo.lt x y = true) : fo.lt y x = false := by
  rw [Bool.eq_false_iff]
  intro h'
  rw [lt_iff] at h h'
  obtain ⟨a, b, h1, h2, h3⟩ := h
  obtain ⟨a', b', h4, h5, h6⟩ := h'
  rw [h1] at h5; rw [h2] at h4
  cases h5; cases h4
  exact lt_irrefl _ (lt_trans h3 h6)

theorem eq_lt (fo : FloatOrder F L) {x y : F} (h : fo.eq x y = true) : fo.lt x y = false := by
  rw [Bool.eq_false_iff]
  intro h'
  rw [lt_iff] at h'
  rw [eq_iff] at h
  obtain ⟨a, b, h1, h2, h3⟩ := h'
  obtain ⟨c, h4, h5⟩ := h
  rw [h1] at h4; rw [h2] at h5
  cases h5; cases h4
  exact lt_irrefl _ h3

theorem total (fo : FloatOrder F L) {x y : F} (hx : fo.place x ≠ none) (hy : fo.place y ≠ none) :
    fo.lt x y = true ∨ fo.eq x y = true ∨ fo.lt y x = true := by
  obtain ⟨a, ha⟩ := Option.ne_none_iff_exists'.mp hx
  obtain ⟨b, hb⟩ := Option.ne_none_iff_exists'.mp hy
  rw [lt_iff, lt_iff, eq_iff]
  rcases lt_trichotomy a b with h | h | h
  · exact .inl ⟨a, b, ha, hb, h⟩
  · exact .inr (.inl ⟨a, ha, h ▸ hb⟩)
  · exact .inr (.inr ⟨b, a, hb, ha, h⟩)

theorem eq_self (fo : FloatOrder F L) (x : F) : fo.eq x x = true ↔ fo.place x ≠ none := by
  rw [eq_iff, Option.ne_none_iff_exists']
  simp

end FloatOrder

/-! ## Without conditions -/

mutual
theorem eqV_symm (fo : FloatOrder F L) : ∀ (a b : Json F), eqV fo a b = eqV fo b a
  | .arr xs, b => by
    cases b <;> simp only [eqV]
    exact eqL_symm fo xs _
  | .obj ms, b => by
    cases b <;> simp only [eqV]
    exact eqM_symm fo ms _
  | .null, b => by cases b <;> simp only [eqV]
  | .str s, b => by cases b <;> simp only [eqV, Bool.beq_comm]
  | .bool s, b => by cases b <;> simp only [eqV, BEq.comm]
  | .int s, b => by cases b <;> simp only [eqV, BEq.comm, fo.eq_symm]
  | .uint s, b => by cases b <;> simp only [eqV, BEq.comm, fo.eq_symm]
  | .float s, b => by cases b <;> simp only [eqV, BEq.comm, fo.eq_symm]
theorem eqL_symm (fo : FloatOrder F L) : ∀ (xs ys : List (Json F)), eqL fo xs ys = eqL fo ys xs
  | [], ys => by cases ys <;> simp only [eqL]
  | x :: xs, ys => by
    cases ys with
    | nil => simp only [eqL]
    | cons y ys => simp only [eqL]; rw [eqV_symm fo x y, eqL_symm fo xs ys]
theorem eqM_symm (fo : FloatOrder F L) : ∀ (ms ns : List (Bytes × Json F)), eqM fo ms ns = eqM fo ns ms
  | [], ns => by cases ns <;> simp only [eqM]
  | (k, x) :: ms, ns => by
    cases ns with
    | nil => simp only [eqM]
    | cons y ns =>
      obtain ⟨l, y⟩ := y
      simp only [eqM]; rw [eqV_symm fo x y, eqM_symm fo ms ns, BEq.comm]
end

mutual
theorem ltV_asymm (fo : FloatOrder F L) : ∀ (a b : Json F), ltV fo a b = true → ltV fo b a = false
  | .arr xs, b => by
    cases b <;> simp [ltV, kindOrder]
    exact ltL_asymm fo xs _
  | .obj ms, b => by
    cases b <;> simp [ltV, kindOrder]
    exact ltM_asymm fo ms _
  | .null, b => by cases b <;> simp [ltV, kindOrder]
  | .str s, b => by
    cases b <;> simp [ltV, kindOrder]
    exact bytesLt_asymm
  | .bool s, b => by cases b <;> simp +contextual [ltV, kindOrder]
  | .int s, b => by
    cases b <;> simp [ltV, kindOrder]
    · omega
    · omega
    · exact fo.lt_asymm
  | .uint s, b => by
    cases b <;> simp [ltV, kindOrder]
    · omega
    · omega
    · exact fo.lt_asymm
  | .float s, b => by
    cases b <;> simp [ltV, kindOrder]
    all_goals exact fo.lt_asymm
theorem ltL_asymm (fo : FloatOrder F L) : ∀ (xs ys : List (Json F)), ltL fo xs ys = true →
    ltL fo ys xs = false
  | [], ys => by cases ys <;> simp [ltL]
  | x :: xs, ys => by
    cases ys with
    | nil => simp [ltL]
    | cons y ys =>
      have h1 := ltV_asymm fo x y
      have h2 := ltL_asymm fo xs ys
      simp only [ltL]
      by_cases h : ltV fo x y = true
      · simp [h, h1 h]
      · by_cases h' : ltV fo y x = true
        · simp [h, h']
        · simpa [h, h'] using h2
theorem ltM_asymm (fo : FloatOrder F L) : ∀ (ms ns : List (Bytes × Json F)), ltM fo ms ns = true →
    ltM fo ns ms = false
  | [], ns => by cases ns <;> simp [ltM]
  | (k, x) :: ms, ns => by
    cases ns with
    | nil => simp [ltM]
    | cons y ns =>
      obtain ⟨l, y⟩ := y
      have h1 := ltV_asymm fo x y
      have h2 := ltM_asymm fo ms ns
      have h3 := @bytesLt_asymm k l
      simp only [ltM]
      by_cases hk : bytesLt k l = true
      · simp [hk, h3 hk]
      · by_cases hl : bytesLt l k = true
        · simp [hk, hl]
        · by_cases h : ltV fo x y = true
          · simp [hk, hl, h, h1 h]
          · by_cases h' : ltV fo y x = true
            · simp [hk, hl, h, h']
            · simpa [hk, hl, h, h'] using h2
end

mutual
theorem eqV_lt (fo : FloatOrder F L) : ∀ (a b : Json F), eqV fo a b = true → ltV fo a b = false
  | .arr xs, b => by
    cases b <;> simp [ltV, eqV, kindOrder]
    exact eqL_lt fo xs _
  | .obj ms, b => by
    cases b <;> simp [ltV, eqV, kindOrder]
    exact eqM_lt fo ms _
  | .null, b => by cases b <;> simp [ltV, eqV, kindOrder]
  | .str s, b => by
    cases b <;> simp [ltV, eqV, kindOrder]
    rintro rfl; exact bytesLt_irrefl _
  | .bool s, b => by cases b <;> simp +contextual [ltV, eqV, kindOrder]
  | .int s, b => by
    cases b <;> simp [ltV, eqV, kindOrder]
    · omega
    · omega
    · exact fo.eq_lt
  | .uint s, b => by
    cases b <;> simp [ltV, eqV, kindOrder]
    · omega
    · omega
    · exact fo.eq_lt
  | .float s, b => by
    cases b <;> simp [ltV, eqV, kindOrder]
    all_goals exact fo.eq_lt
theorem eqL_lt (fo : FloatOrder F L) : ∀ (xs ys : List (Json F)), eqL fo xs ys = true →
    ltL fo xs ys = false
  | [], ys => by cases ys <;> simp [ltL, eqL]
  | x :: xs, ys => by
    cases ys with
    | nil => simp [ltL]
    | cons y ys =>
      have h1 := eqV_lt fo x y
      have h2 := eqL_lt fo xs ys
      simp only [ltL, eqL, Bool.and_eq_true]
      rintro ⟨h, h'⟩
      simp [h1 h, h2 h']
theorem eqM_lt (fo : FloatOrder F L) : ∀ (ms ns : List (Bytes × Json F)), eqM fo ms ns = true →
    ltM fo ms ns = false
  | [], ns => by cases ns <;> simp [ltM, eqM]
  | (k, x) :: ms, ns => by
    cases ns with
    | nil => simp [ltM]
    | cons y ns =>
      obtain ⟨l, y⟩ := y
      have h1 := eqV_lt fo x y
      have h2 := eqM_lt fo ms ns
      simp only [ltM, eqM, Bool.and_eq_true, beq_iff_eq]
      rintro ⟨⟨rfl, h⟩, h'⟩
      simp [h1 h, h2 h', bytesLt_irrefl]
end

/-! ## Without NaNs -/

namespace Spec

mutual
/-- all the floating-point numbers in a value -/
def floats : Json F → List F
  | .float x => [x]
  | .arr xs => floatsL xs
  | .obj ms => floatsM ms
  | _ => []
/-- all the floating-point numbers in the elements -/
def floatsL : List (Json F) → List F
  | [] => []
  | v :: vs => floats v ++ floatsL vs
/-- all the floating-point numbers in the members -/
def floatsM : List (Bytes × Json F) → List F
  | [] => []
  | (_, v) :: ms => floats v ++ floatsM ms
end

end Spec

open Spec

mutual
theorem ltV_total (fo : FloatOrder F L) (hi : ∀ i, fo.place (fo.ofInt i) ≠ none) :
    ∀ (a b : Json F), (∀ x ∈ floats a, fo.place x ≠ none) → (∀ x ∈ floats b, fo.place x ≠ none) →
    ltV fo a b = true ∨ eqV fo a b = true ∨ ltV fo b a = true
  | .arr xs, b => by
    cases b <;> simp [ltV, eqV, kindOrder, floats]
    exact ltL_total fo hi xs _
  | .obj ms, b => by
    cases b <;> simp [ltV, eqV, kindOrder, floats]
    exact ltM_total fo hi ms _
  | .null, b => by cases b <;> simp [ltV, eqV, kindOrder]
  | .str s, b => by
    cases b <;> simp [ltV, eqV, kindOrder, floats]
    rename_i t
    by_cases h1 : bytesLt s t = true
    · exact .inl h1
    · by_cases h2 : bytesLt t s = true
      · exact .inr (.inr h2)
      · exact .inr (.inl (bytesLt_total (by simpa using h1) (by simpa using h2)))
  | .bool s, b => by
    cases b <;> simp [ltV, eqV, kindOrder, floats]
    rename_i c
    cases s <;> cases c <;> simp
  | .int s, b => by
    cases b <;> simp [ltV, eqV, kindOrder, floats]
    · omega
    · omega
    · exact fun h => fo.total (hi _) h
  | .uint s, b => by
    cases b <;> simp [ltV, eqV, kindOrder, floats]
    · omega
    · omega
    · exact fun h => fo.total (hi _) h
  | .float s, b => by
    cases b <;> simp [ltV, eqV, kindOrder, floats]
    · exact fun h => fo.total h (hi _)
    · exact fun h => fo.total h (hi _)
    · exact fun h h' => fo.total h h'
theorem ltL_total (fo : FloatOrder F L) (hi : ∀ i, fo.place (fo.ofInt i) ≠ none) :
    ∀ (xs ys : List (Json F)), (∀ x ∈ floatsL xs, fo.place x ≠ none) →
    (∀ x ∈ floatsL ys, fo.place x ≠ none) →
    ltL fo xs ys = true ∨ eqL fo xs ys = true ∨ ltL fo ys xs = true
  | [], ys => by cases ys <;> simp [ltL, eqL]
  | x :: xs, ys => by
    cases ys with
    | nil => simp [ltL]
    | cons y ys =>
      intro h h'
      simp only [floatsL, List.mem_append] at h h'
      have h1 := ltV_total fo hi x y (fun z hz => h z (.inl hz)) (fun z hz => h' z (.inl hz))
      have h2 := ltL_total fo hi xs ys (fun z hz => h z (.inr hz)) (fun z hz => h' z (.inr hz))
      simp only [ltL, eqL]
      by_cases e1 : ltV fo x y = true
      · simp [e1]
      · by_cases e2 : ltV fo y x = true
        · simp [e1, e2]
        · have e3 : eqV fo x y = true := (h1.resolve_left e1).resolve_right e2
          simpa [e1, e2, e3] using h2
theorem ltM_total (fo : FloatOrder F L) (hi : ∀ i, fo.place (fo.ofInt i) ≠ none) :
    ∀ (ms ns : List (Bytes × Json F)), (∀ x ∈ floatsM ms, fo.place x ≠ none) →
    (∀ x ∈ floatsM ns, fo.place x ≠ none) →
    ltM fo ms ns = true ∨ eqM fo ms ns = true ∨ ltM fo ns ms = true
  | [], ns => by cases ns <;> simp [ltM, eqM]
  | (k, x) :: ms, ns => by
    cases ns with
    | nil => simp [ltM]
    | cons y ns =>
      obtain ⟨l, y⟩ := y
      intro h h'
      simp only [floatsM, List.mem_append] at h h'
      have h1 := ltV_total fo hi x y (fun z hz => h z (.inl hz)) (fun z hz => h' z (.inl hz))
      have h2 := ltM_total fo hi ms ns (fun z hz => h z (.inr hz)) (fun z hz => h' z (.inr hz))
      simp only [ltM, eqM]
      by_cases k1 : bytesLt k l = true
      · simp [k1]
      by_cases k2 : bytesLt l k = true
      · simp [k2]
      obtain rfl := bytesLt_total (by simpa using k1) (by simpa using k2)
      by_cases e1 : ltV fo x y = true
      · simp [e1, k1]
      · by_cases e2 : ltV fo y x = true
        · simp [e1, e2, k1]
        · have e3 : eqV fo x y = true := (h1.resolve_left e1).resolve_right e2
          simpa [e1, e2, e3, k1] using h2
end

mutual
theorem eqV_self (fo : FloatOrder F L) : ∀ (a : Json F),
    eqV fo a a = true ↔ ∀ x ∈ floats a, fo.place x ≠ none
  | .arr xs => by simpa [eqV, floats] using eqL_self fo xs
  | .obj ms => by simpa [eqV, floats] using eqM_self fo ms
  | .null | .str _ | .bool _ | .int _ | .uint _ => by simp [eqV, floats]
  | .float x => by simpa [eqV, floats] using fo.eq_self x
theorem eqL_self (fo : FloatOrder F L) : ∀ (xs : List (Json F)),
    eqL fo xs xs = true ↔ ∀ x ∈ floatsL xs, fo.place x ≠ none
  | [] => by simp [eqL, floatsL]
  | x :: xs => by
    simp only [eqL, floatsL, Bool.and_eq_true, eqV_self fo x, eqL_self fo xs, List.mem_append]
    exact ⟨fun h z hz => hz.elim (h.1 z) (h.2 z), fun h => ⟨fun z hz => h z (.inl hz), fun z hz => h z (.inr hz)⟩⟩
theorem eqM_self (fo : FloatOrder F L) : ∀ (ms : List (Bytes × Json F)),
    eqM fo ms ms = true ↔ ∀ x ∈ floatsM ms, fo.place x ≠ none
  | [] => by simp [eqM, floatsM]
  | (k, x) :: ms => by
    simp only [eqM, floatsM, Bool.and_eq_true, eqV_self fo x, eqM_self fo ms, List.mem_append, beq_self_eq_true, true_and]
    exact ⟨fun h z hz => hz.elim (h.1 z) (h.2 z), fun h => ⟨fun z hz => h z (.inl hz), fun z hz => h z (.inr hz)⟩⟩
end

/-! ## What the values stand for -/

namespace Spec

/-- what a JSON value stands for: a number is a number, however it is stored -/
inductive Val (L : Type) where
  | null
  | bool (b : Bool)
  | num (x : L)
  | str (s : Bytes)
  | arr (xs : List (Val L))
  | obj (ms : List (Bytes × Val L))

/-- "order: null < boolean < number < object < array < string", json.hpp:2872 -/
def Val.kind : Val L → Nat
  | .null => 0
  | .bool _ => 1
  | .num _ => 2
  | .obj _ => 3
  | .arr _ => 4
  | .str _ => 5

/-- the order of the values: of different kinds by the kind; numbers by size, strings by their bytes; arrays
and objects by the first place where they differ, or the shorter first -/
inductive Less : Val L → Val L → Prop
  | kind {a b} : a.kind < b.kind → Less a b
  | bool : Less (.bool false) (.bool true)
  | num {x y} : x < y → Less (.num x) (.num y)
  | str {s t} : s < t → Less (.str s) (.str t)
  | arr (p s t) {x y} : Less x y → Less (.arr (p ++ x :: s)) (.arr (p ++ y :: t))
  | arrShort (p x s) : Less (.arr p) (.arr (p ++ x :: s))
  | obj (p s t k) {x y} : Less x y → Less (.obj (p ++ (k, x) :: s)) (.obj (p ++ (k, y) :: t))
  | objName (p s t x y) {k l} : k < l → Less (.obj (p ++ (k, x) :: s)) (.obj (p ++ (l, y) :: t))
  | objShort (p m s) : Less (.obj p) (.obj (p ++ m :: s))

mutual
/-- what a value stands for (a NaN for nothing: it is excluded below) -/
def mean (fo : FloatOrder F L) : Json F → Val L
  | .null => .null
  | .bool b => .bool b
  | .int i => .num (fo.num i)
  | .uint n => .num (fo.num n)
  | .float x => match fo.place x with
    | some a => .num a
    | none => .null
  | .str s => .str s
  | .arr xs => .arr (meanL fo xs)
  | .obj ms => .obj (meanM fo ms)
/-- what the elements stand for -/
def meanL (fo : FloatOrder F L) : List (Json F) → List (Val L)
  | [] => []
  | v :: vs => mean fo v :: meanL fo vs
/-- what the members stand for -/
def meanM (fo : FloatOrder F L) : List (Bytes × Json F) → List (Bytes × Val L)
  | [] => []
  | (k, v) :: ms => (k, mean fo v) :: meanM fo ms
end

mutual
/-- integers of 63 bits and sign; with `fp` all of them numbers of the floating-point type; without `fp` no
floating-point numbers; no NaN -/
def Sane (fo : FloatOrder F L) (fp : Bool) : Json F → Prop
  | .int i => -(2 ^ 63) ≤ i ∧ i < 2 ^ 63 ∧ (fp = true → fo.place (fo.ofInt i) = some (fo.num i))
  | .uint n => n < 2 ^ 63 ∧ (fp = true → fo.place (fo.ofInt n) = some (fo.num n))
  | .float x => fp = true ∧ fo.place x ≠ none
  | .arr xs => SaneL fo fp xs
  | .obj ms => SaneM fo fp ms
  | .null | .bool _ | .str _ => True
/-- all elements are sane -/
def SaneL (fo : FloatOrder F L) (fp : Bool) : List (Json F) → Prop
  | [] => True
  | v :: vs => Sane fo fp v ∧ SaneL fo fp vs
/-- all members are sane -/
def SaneM (fo : FloatOrder F L) (fp : Bool) : List (Bytes × Json F) → Prop
  | [] => True
  | (_, v) :: ms => Sane fo fp v ∧ SaneM fo fp ms
end

end Spec

theorem toSigned_small {n : Nat} (h : n < 2 ^ 63) : toSigned n = n := by
  unfold toSigned
  have : n % 2 ^ 64 = n := by omega
  rw [this, if_pos h]

theorem num_inj {fo : FloatOrder F L} (hn : ∀ i j, i < j → fo.num i < fo.num j) {i j : Int} :
    fo.num i = fo.num j ↔ i = j := by
  constructor
  · intro h
    rcases Int.lt_trichotomy i j with h1 | h1 | h1
    · exact absurd (hn _ _ h1) (h ▸ lt_irrefl _)
    · exact h1
    · exact absurd (hn _ _ h1) (h ▸ lt_irrefl _)
  · rintro rfl; rfl

theorem num_lt {fo : FloatOrder F L} (hn : ∀ i j, i < j → fo.num i < fo.num j) {i j : Int} :
    fo.num i < fo.num j ↔ i < j := by
  constructor
  · intro h
    rcases Int.lt_trichotomy i j with h1 | h1 | h1
    · exact h1
    · exact absurd h (h1 ▸ lt_irrefl _)
    · exact absurd (lt_trans h (hn _ _ h1)) (lt_irrefl _)
  · exact hn i j

theorem place_some {fo : FloatOrder F L} {x : F} (h : fo.place x ≠ none) :
    ∃ a, fo.place x = some a ∧ mean fo (.float x) = .num a := by
  obtain ⟨a, ha⟩ := Option.ne_none_iff_exists'.mp h
  exact ⟨a, ha, by simp [mean, ha]⟩

/-- sane numbers are compared as numbers -/
theorem eq_num (fo : FloatOrder F L) {x y : F} {a b : L} (hx : fo.place x = some a)
    (hy : fo.place y = some b) : fo.eq x y = true ↔ a = b := by
  simp [FloatOrder.eq, hx, hy]

theorem lt_num (fo : FloatOrder F L) {x y : F} {a b : L} (hx : fo.place x = some a)
    (hy : fo.place y = some b) : fo.lt x y = true ↔ a < b := by
  simp [FloatOrder.lt, hx, hy]

mutual
theorem eqV_mean (fo : FloatOrder F L) (fp : Bool) (hn : ∀ i j, i < j → fo.num i < fo.num j) :
    ∀ (a b : Json F), Sane fo fp a → Sane fo fp b → (eqV fo a b = true ↔ mean fo a = mean fo b)
  | .arr xs, b, ha, hb => by
    rw [Sane] at ha
    cases b with
    | arr ys =>
      rw [Sane] at hb
      simpa [eqV, mean] using eqL_mean fo fp hn xs ys ha hb
    | float y => rw [Sane] at hb; obtain ⟨c, _, e⟩ := place_some hb.2; rw [e]; simp [eqV, mean]
    | _ => simp [eqV, mean]
  | .obj ms, b, ha, hb => by
    rw [Sane] at ha
    cases b with
    | obj ns =>
      rw [Sane] at hb
      simpa [eqV, mean] using eqM_mean fo fp hn ms ns ha hb
    | float y => rw [Sane] at hb; obtain ⟨c, _, e⟩ := place_some hb.2; rw [e]; simp [eqV, mean]
    | _ => simp [eqV, mean]
  | .null, b, _, hb | .str _, b, _, hb | .bool _, b, _, hb => by
    cases b with
    | float y => rw [Sane] at hb; obtain ⟨c, _, e⟩ := place_some hb.2; rw [e]; simp [eqV, mean]
    | _ => simp [eqV, mean]
  | .int i, b, ha, hb => by
    rw [Sane] at ha
    cases b with
    | int j => simp [eqV, mean, num_inj hn]
    | uint n =>
      rw [Sane] at hb
      simp [eqV, mean, num_inj hn, toSigned_small hb.1]
    | float y =>
      rw [Sane] at hb; obtain ⟨c, e1, e2⟩ := place_some hb.2
      rw [e2]
      simp only [eqV, mean, Val.num.injEq]
      exact eq_num fo (ha.2.2 hb.1) e1
    | _ => simp [eqV, mean]
  | .uint m, b, ha, hb => by
    rw [Sane] at ha
    cases b with
    | int j => simp [eqV, mean, num_inj hn, toSigned_small ha.1]
    | uint n => simp only [eqV, mean, Val.num.injEq, num_inj hn, beq_iff_eq]; omega
    | float y =>
      rw [Sane] at hb; obtain ⟨c, e1, e2⟩ := place_some hb.2
      rw [e2]
      simp only [eqV, mean, Val.num.injEq]
      exact eq_num fo (ha.2 hb.1) e1
    | _ => simp [eqV, mean]
  | .float x, b, ha, hb => by
    rw [Sane] at ha
    obtain ⟨c, e1, e2⟩ := place_some ha.2
    rw [e2]
    cases b with
    | int j =>
      rw [Sane] at hb
      simp only [eqV, mean, Val.num.injEq]
      exact eq_num fo e1 (hb.2.2 ha.1)
    | uint n =>
      rw [Sane] at hb
      simp only [eqV, mean, Val.num.injEq]
      exact eq_num fo e1 (hb.2 ha.1)
    | float y =>
      rw [Sane] at hb
      obtain ⟨d, e3, e4⟩ := place_some hb.2
      rw [e4]
      simp only [eqV, Val.num.injEq]
      exact eq_num fo e1 e3
    | _ => simp [eqV, mean]
theorem eqL_mean (fo : FloatOrder F L) (fp : Bool) (hn : ∀ i j, i < j → fo.num i < fo.num j) :
    ∀ (xs ys : List (Json F)), SaneL fo fp xs → SaneL fo fp ys →
    (eqL fo xs ys = true ↔ meanL fo xs = meanL fo ys)
  | [], ys, _, _ => by cases ys <;> simp [eqL, meanL]
  | x :: xs, ys, hx, hy => by
    cases ys with
    | nil => simp [eqL, meanL]
    | cons y ys =>
      rw [SaneL] at hx hy
      simp [eqL, meanL, eqV_mean fo fp hn x y hx.1 hy.1, eqL_mean fo fp hn xs ys hx.2 hy.2]
theorem eqM_mean (fo : FloatOrder F L) (fp : Bool) (hn : ∀ i j, i < j → fo.num i < fo.num j) :
    ∀ (ms ns : List (Bytes × Json F)), SaneM fo fp ms → SaneM fo fp ns →
    (eqM fo ms ns = true ↔ meanM fo ms = meanM fo ns)
  | [], ns, _, _ => by cases ns <;> simp [eqM, meanM]
  | (k, x) :: ms, ns, hx, hy => by
    cases ns with
    | nil => simp [eqM, meanM]
    | cons y ns =>
      obtain ⟨l, y⟩ := y
      rw [SaneM] at hx hy
      simp [eqM, meanM, eqV_mean fo fp hn x y hx.1 hy.1, eqM_mean fo fp hn ms ns hx.2 hy.2]
end

mutual
theorem sane_floats {fo : FloatOrder F L} {fp : Bool} : ∀ {v : Json F}, Sane fo fp v →
    ∀ x ∈ floats v, fo.place x ≠ none
  | .arr xs, h => by rw [Sane] at h; rw [floats]; exact saneL_floats h
  | .obj ms, h => by rw [Sane] at h; rw [floats]; exact saneM_floats h
  | .float x, h => by rw [Sane] at h; simpa [floats] using h.2
  | .null, _ | .bool _, _ | .str _, _ | .int _, _ | .uint _, _ => by simp [floats]
theorem saneL_floats {fo : FloatOrder F L} {fp : Bool} : ∀ {vs : List (Json F)}, SaneL fo fp vs →
    ∀ x ∈ floatsL vs, fo.place x ≠ none
  | [], _ => by simp [floatsL]
  | v :: vs, h => by
    rw [SaneL] at h
    intro x hx
    rw [floatsL, List.mem_append] at hx
    exact hx.elim (sane_floats h.1 x) (saneL_floats h.2 x)
theorem saneM_floats {fo : FloatOrder F L} {fp : Bool} : ∀ {ms : List (Bytes × Json F)}, SaneM fo fp ms →
    ∀ x ∈ floatsM ms, fo.place x ≠ none
  | [], _ => by simp [floatsM]
  | (k, v) :: ms, h => by
    rw [SaneM] at h
    intro x hx
    rw [floatsM, List.mem_append] at hx
    exact hx.elim (sane_floats h.1 x) (saneM_floats h.2 x)
end

/-! ## The order of what they stand for -/

theorem less_arr_nil (xs : List (Val L)) : ¬ Less (.arr xs) (.arr ([] : List (Val L))) := by
  intro h
  generalize ha : Val.arr xs = a at h
  generalize hb : Val.arr ([] : List (Val L)) = b at h
  cases h with
  | kind h => subst ha; subst hb; simp [Val.kind] at h
  | _ => simp at ha hb

theorem less_nil_arr (x : Val L) (xs : List (Val L)) : Less (.arr []) (.arr (x :: xs)) :=
  .arrShort [] x xs

theorem less_arr_cons {x y : Val L} {xs ys : List (Val L)} :
    Less (.arr (x :: xs)) (.arr (y :: ys)) ↔ Less x y ∨ x = y ∧ Less (.arr xs) (.arr ys) := by
  constructor
  · intro h
    generalize ha : Val.arr (x :: xs) = a at h
    generalize hb : Val.arr (y :: ys) = b at h
    cases h with
    | kind h => subst ha; subst hb; simp [Val.kind] at h
    | arr p s t h =>
      cases p with
      | nil => simp at ha hb; obtain ⟨rfl, rfl⟩ := ha; obtain ⟨rfl, rfl⟩ := hb; exact .inl h
      | cons z p =>
        simp at ha hb; obtain ⟨rfl, rfl⟩ := ha; obtain ⟨rfl, rfl⟩ := hb
        exact .inr ⟨rfl, .arr p s t h⟩
    | arrShort p z s =>
      cases p with
      | nil => simp at ha
      | cons w p =>
        simp at ha hb; obtain ⟨rfl, rfl⟩ := ha; obtain ⟨rfl, rfl⟩ := hb
        exact .inr ⟨rfl, .arrShort _ z s⟩
    | _ => simp at ha hb
  · rintro (h | ⟨rfl, h⟩)
    · exact .arr [] xs ys h
    · generalize ha : Val.arr xs = a at h
      generalize hb : Val.arr ys = b at h
      cases h with
      | kind h => subst ha; subst hb; simp [Val.kind] at h
      | arr p s t h => simp at ha hb; subst ha; subst hb; exact .arr (x :: p) s t h
      | arrShort p z s => simp at ha hb; subst ha; subst hb; exact .arrShort (x :: _) z s
      | _ => simp at ha hb

theorem less_obj_nil (xs : List (Bytes × Val L)) : ¬ Less (.obj xs) (.obj ([] : List (Bytes × Val L))) := by
  intro h
  generalize ha : Val.obj xs = a at h
  generalize hb : Val.obj ([] : List (Bytes × Val L)) = b at h
  cases h with
  | kind h => subst ha; subst hb; simp [Val.kind] at h
  | _ => simp at ha hb

theorem less_obj_cons {k l : Bytes} {x y : Val L} {xs ys : List (Bytes × Val L)} :
    Less (.obj ((k, x) :: xs)) (.obj ((l, y) :: ys)) ↔
      k < l ∨ k = l ∧ (Less x y ∨ x = y ∧ Less (.obj xs) (.obj ys)) := by
  constructor
  · intro h
    generalize ha : Val.obj ((k, x) :: xs) = a at h
    generalize hb : Val.obj ((l, y) :: ys) = b at h
    cases h with
    | kind h => subst ha; subst hb; simp [Val.kind] at h
    | obj p s t k h =>
      cases p with
      | nil => simp at ha hb; obtain ⟨⟨rfl, rfl⟩, rfl⟩ := ha; obtain ⟨⟨rfl, rfl⟩, rfl⟩ := hb; exact .inr ⟨rfl, .inl h⟩
      | cons z p =>
        simp at ha hb; obtain ⟨rfl, rfl⟩ := ha; obtain ⟨⟨rfl, rfl⟩, rfl⟩ := hb
        exact .inr ⟨rfl, .inr ⟨rfl, .obj p s t k h⟩⟩
    | objName p s t x y h =>
      cases p with
      | nil => simp at ha hb; obtain ⟨⟨rfl, rfl⟩, rfl⟩ := ha; obtain ⟨⟨rfl, rfl⟩, rfl⟩ := hb; exact .inl h
      | cons z p =>
        simp at ha hb; obtain ⟨rfl, rfl⟩ := ha; obtain ⟨⟨rfl, rfl⟩, rfl⟩ := hb
        exact .inr ⟨rfl, .inr ⟨rfl, .objName p s t x y h⟩⟩
    | objShort p z s =>
      cases p with
      | nil => simp at ha
      | cons w p =>
        simp at ha hb; obtain ⟨rfl, rfl⟩ := ha; obtain ⟨⟨rfl, rfl⟩, rfl⟩ := hb
        exact .inr ⟨rfl, .inr ⟨rfl, .objShort _ z s⟩⟩
    | _ => simp at ha hb
  · rintro (h | ⟨rfl, h | ⟨rfl, h⟩⟩)
    · exact .objName [] xs ys x y h
    · exact .obj [] xs ys k h
    · generalize ha : Val.obj xs = a at h
      generalize hb : Val.obj ys = b at h
      cases h with
      | kind h => subst ha; subst hb; simp [Val.kind] at h
      | obj p s t l h => simp at ha hb; subst ha; subst hb; exact .obj ((k, x) :: p) s t l h
      | objName p s t x' y h => simp at ha hb; subst ha; subst hb; exact .objName ((k, x) :: p) s t x' y h
      | objShort p z s => simp at ha hb; subst ha; subst hb; exact .objShort ((k, x) :: _) z s
      | _ => simp at ha hb

/-- different kinds -/
theorem less_kind {a b : Val L} (h : a.kind ≠ b.kind) : Less a b ↔ a.kind < b.kind := by
  constructor
  · intro h'
    cases h' with
    | kind h => exact h
    | _ => simp [Val.kind] at h
  · exact .kind

theorem less_null : ¬ Less (.null : Val L) .null := by
  intro h
  cases h with
  | kind h => simp [Val.kind] at h

theorem less_bool {b c : Bool} : Less (.bool b : Val L) (.bool c) ↔ b = false ∧ c = true := by
  constructor
  · intro h
    cases h with
    | kind h => simp [Val.kind] at h
    | bool => simp
  · rintro ⟨rfl, rfl⟩; exact .bool

theorem less_num {x y : L} : Less (.num x) (.num y) ↔ x < y := by
  constructor
  · intro h
    cases h with
    | kind h => simp [Val.kind] at h
    | num h => exact h
  · exact .num

theorem less_str {s t : Bytes} : Less (.str s : Val L) (.str t) ↔ s < t := by
  constructor
  · intro h
    cases h with
    | kind h => simp [Val.kind] at h
    | str h => exact h
  · exact .str

mutual
theorem less_trans : ∀ {a b c : Val L}, Less a b → Less b c → Less a c
  | .arr xs, b, c, h, h' => by
    by_cases e : (Val.arr xs).kind = b.kind
    · by_cases e' : b.kind = c.kind
      · cases b <;> simp [Val.kind] at e
        cases c <;> simp [Val.kind] at e'
        exact less_transL h h'
      · exact .kind (e ▸ (less_kind e').mp h')
    · have h1 := (less_kind e).mp h
      by_cases e' : b.kind = c.kind
      · exact .kind (e' ▸ h1)
      · exact .kind (Nat.lt_trans h1 ((less_kind e').mp h'))
  | .obj xs, b, c, h, h' => by
    by_cases e : (Val.obj xs).kind = b.kind
    · by_cases e' : b.kind = c.kind
      · cases b <;> simp [Val.kind] at e
        cases c <;> simp [Val.kind] at e'
        exact less_transM h h'
      · exact .kind (e ▸ (less_kind e').mp h')
    · have h1 := (less_kind e).mp h
      by_cases e' : b.kind = c.kind
      · exact .kind (e' ▸ h1)
      · exact .kind (Nat.lt_trans h1 ((less_kind e').mp h'))
  | .null, b, c, h, h' => by
    by_cases e : (Val.null : Val L).kind = b.kind
    · cases b <;> simp [Val.kind] at e
      exact absurd h less_null
    · have h1 := (less_kind e).mp h
      by_cases e' : b.kind = c.kind
      · exact .kind (e' ▸ h1)
      · exact .kind (Nat.lt_trans h1 ((less_kind e').mp h'))
  | .bool x, b, c, h, h' => by
    by_cases e : (Val.bool x : Val L).kind = b.kind
    · by_cases e' : b.kind = c.kind
      · cases b <;> simp [Val.kind] at e
        cases c <;> simp [Val.kind] at e'
        rw [less_bool] at *
        exact ⟨h.1, h'.2⟩
      · exact .kind (e ▸ (less_kind e').mp h')
    · have h1 := (less_kind e).mp h
      by_cases e' : b.kind = c.kind
      · exact .kind (e' ▸ h1)
      · exact .kind (Nat.lt_trans h1 ((less_kind e').mp h'))
  | .num x, b, c, h, h' => by
    by_cases e : (Val.num x : Val L).kind = b.kind
    · by_cases e' : b.kind = c.kind
      · cases b <;> simp [Val.kind] at e
        cases c <;> simp [Val.kind] at e'
        rw [less_num] at *
        exact lt_trans h h'
      · exact .kind (e ▸ (less_kind e').mp h')
    · have h1 := (less_kind e).mp h
      by_cases e' : b.kind = c.kind
      · exact .kind (e' ▸ h1)
      · exact .kind (Nat.lt_trans h1 ((less_kind e').mp h'))
  | .str x, b, c, h, h' => by
    by_cases e : (Val.str x : Val L).kind = b.kind
    · by_cases e' : b.kind = c.kind
      · cases b <;> simp [Val.kind] at e
        cases c <;> simp [Val.kind] at e'
        rw [less_str] at *
        exact List.lt_trans h h'
      · exact .kind (e ▸ (less_kind e').mp h')
    · have h1 := (less_kind e).mp h
      by_cases e' : b.kind = c.kind
      · exact .kind (e' ▸ h1)
      · exact .kind (Nat.lt_trans h1 ((less_kind e').mp h'))
theorem less_transL : ∀ {xs ys zs : List (Val L)}, Less (.arr xs) (.arr ys) → Less (.arr ys) (.arr zs) →
    Less (.arr xs) (.arr zs)
  | _, [], _, h, _ => absurd h (less_arr_nil _)
  | _, _ :: _, [], _, h' => absurd h' (less_arr_nil _)
  | [], _ :: _, z :: zs, _, _ => less_nil_arr z zs
  | x :: xs, y :: ys, z :: zs, h, h' => by
    rw [less_arr_cons] at *
    rcases h with h | ⟨rfl, h⟩
    · rcases h' with h' | ⟨rfl, h'⟩
      · exact .inl (less_trans h h')
      · exact .inl h
    · rcases h' with h' | ⟨rfl, h'⟩
      · exact .inl h'
      · exact .inr ⟨rfl, less_transL h h'⟩
theorem less_transM : ∀ {xs ys zs : List (Bytes × Val L)}, Less (.obj xs) (.obj ys) →
    Less (.obj ys) (.obj zs) → Less (.obj xs) (.obj zs)
  | _, [], _, h, _ => absurd h (less_obj_nil _)
  | _, _ :: _, [], _, h' => absurd h' (less_obj_nil _)
  | [], _ :: _, z :: zs, _, _ => .objShort [] z zs
  | (k, x) :: xs, (l, y) :: ys, (m, z) :: zs, h, h' => by
    rw [less_obj_cons] at *
    rcases h with h | ⟨rfl, h⟩
    · rcases h' with h' | ⟨rfl, h'⟩
      · exact .inl (List.lt_trans h h')
      · exact .inl h
    · rcases h' with h' | ⟨rfl, h'⟩
      · exact .inl h'
      · refine .inr ⟨rfl, ?_⟩
        rcases h with h | ⟨rfl, h⟩
        · rcases h' with h' | ⟨rfl, h'⟩
          · exact .inl (less_trans h h')
          · exact .inl h
        · rcases h' with h' | ⟨rfl, h'⟩
          · exact .inl h'
          · exact .inr ⟨rfl, less_transM h h'⟩
end

theorem kind_mean (fo : FloatOrder F L) (fp : Bool) {v : Json F} (h : Sane fo fp v) :
    (mean fo v).kind = kindOrder v := by
  cases v with
  | float x => rw [Sane] at h; obtain ⟨a, _, e⟩ := place_some h.2; rw [e]; rfl
  | _ => simp [mean, Val.kind, kindOrder]

/-- values of different kinds -/
theorem ltV_kind (fo : FloatOrder F L) {a b : Json F} (h : kindOrder a ≠ kindOrder b) :
    ltV fo a b = true ↔ kindOrder a < kindOrder b := by
  cases a <;> cases b <;> simp [kindOrder, ltV] at h ⊢

mutual
theorem ltV_mean (fo : FloatOrder F L) (fp : Bool) (hn : ∀ i j, i < j → fo.num i < fo.num j)
    (hi : ∀ i, fo.place (fo.ofInt i) ≠ none) :
    ∀ (a b : Json F), Sane fo fp a → Sane fo fp b → (ltV fo a b = true ↔ Less (mean fo a) (mean fo b))
  | .arr xs, b, ha, hb => by
    by_cases h : kindOrder (.arr xs) = kindOrder b
    · cases b <;> simp [kindOrder] at h
      rename_i ys
      rw [Sane] at ha hb
      simp only [ltV, mean]
      exact ltL_mean fo fp hn hi xs ys ha hb
    · rw [ltV_kind fo h, ← kind_mean fo fp ha, ← kind_mean fo fp hb, less_kind]
      rwa [kind_mean fo fp ha, kind_mean fo fp hb]
  | .obj ms, b, ha, hb => by
    by_cases h : kindOrder (.obj ms) = kindOrder b
    · cases b <;> simp [kindOrder] at h
      rename_i ns
      rw [Sane] at ha hb
      simp only [ltV, mean]
      exact ltM_mean fo fp hn hi ms ns ha hb
    · rw [ltV_kind fo h, ← kind_mean fo fp ha, ← kind_mean fo fp hb, less_kind]
      rwa [kind_mean fo fp ha, kind_mean fo fp hb]
  | .null, b, ha, hb => by
    by_cases h : kindOrder (.null : Json F) = kindOrder b
    · cases b <;> simp [kindOrder] at h
      simp [ltV, mean, less_null]
    · rw [ltV_kind fo h, ← kind_mean fo fp ha, ← kind_mean fo fp hb, less_kind]
      rwa [kind_mean fo fp ha, kind_mean fo fp hb]
  | .bool x, b, ha, hb => by
    by_cases h : kindOrder (.bool x : Json F) = kindOrder b
    · cases b <;> simp [kindOrder] at h
      simp [ltV, mean, less_bool]
    · rw [ltV_kind fo h, ← kind_mean fo fp ha, ← kind_mean fo fp hb, less_kind]
      rwa [kind_mean fo fp ha, kind_mean fo fp hb]
  | .str x, b, ha, hb => by
    by_cases h : kindOrder (.str x : Json F) = kindOrder b
    · cases b <;> simp [kindOrder] at h
      simp [ltV, mean, less_str, bytesLt_iff]
    · rw [ltV_kind fo h, ← kind_mean fo fp ha, ← kind_mean fo fp hb, less_kind]
      rwa [kind_mean fo fp ha, kind_mean fo fp hb]
  | .int i, b, ha, hb => by
    by_cases h : kindOrder (.int i : Json F) = kindOrder b
    · rw [Sane] at ha
      cases b <;> simp [kindOrder] at h
      · simp [ltV, mean, less_num, num_lt hn]
      · rw [Sane] at hb
        simp [ltV, mean, less_num, num_lt hn, toSigned_small hb.1]
      · rw [Sane] at hb
        obtain ⟨c, e1, e2⟩ := place_some hb.2
        rw [e2]
        simp only [ltV, mean, less_num]
        exact lt_num fo (ha.2.2 hb.1) e1
    · rw [ltV_kind fo h, ← kind_mean fo fp ha, ← kind_mean fo fp hb, less_kind]
      rwa [kind_mean fo fp ha, kind_mean fo fp hb]
  | .uint m, b, ha, hb => by
    by_cases h : kindOrder (.uint m : Json F) = kindOrder b
    · rw [Sane] at ha
      cases b <;> simp [kindOrder] at h
      · simp [ltV, mean, less_num, num_lt hn, toSigned_small ha.1]
      · simp [ltV, mean, less_num, num_lt hn]
      · rw [Sane] at hb
        obtain ⟨c, e1, e2⟩ := place_some hb.2
        rw [e2]
        simp only [ltV, mean, less_num]
        exact lt_num fo (ha.2 hb.1) e1
    · rw [ltV_kind fo h, ← kind_mean fo fp ha, ← kind_mean fo fp hb, less_kind]
      rwa [kind_mean fo fp ha, kind_mean fo fp hb]
  | .float x, b, ha, hb => by
    by_cases h : kindOrder (.float x : Json F) = kindOrder b
    · rw [Sane] at ha
      obtain ⟨c, e1, e2⟩ := place_some ha.2
      rw [e2]
      cases b <;> simp [kindOrder] at h
      · rw [Sane] at hb
        simp only [ltV, mean, less_num]
        exact lt_num fo e1 (hb.2.2 ha.1)
      · rw [Sane] at hb
        simp only [ltV, mean, less_num]
        exact lt_num fo e1 (hb.2 ha.1)
      · rw [Sane] at hb
        obtain ⟨d, e3, e4⟩ := place_some hb.2
        rw [e4]
        simp only [ltV, less_num]
        exact lt_num fo e1 e3
    · rw [ltV_kind fo h, ← kind_mean fo fp ha, ← kind_mean fo fp hb, less_kind]
      rwa [kind_mean fo fp ha, kind_mean fo fp hb]
theorem ltL_mean (fo : FloatOrder F L) (fp : Bool) (hn : ∀ i j, i < j → fo.num i < fo.num j)
    (hi : ∀ i, fo.place (fo.ofInt i) ≠ none) :
    ∀ (xs ys : List (Json F)), SaneL fo fp xs → SaneL fo fp ys →
    (ltL fo xs ys = true ↔ Less (.arr (meanL fo xs)) (.arr (meanL fo ys)))
  | xs, [], _, _ => by
    have : ltL fo xs [] = false := by cases xs <;> simp [ltL]
    simp [this, meanL, less_arr_nil]
  | [], y :: ys, _, _ => by simp [ltL, meanL, less_nil_arr]
  | x :: xs, y :: ys, hx, hy => by
    rw [SaneL] at hx hy
    have h1 := ltV_mean fo fp hn hi x y hx.1 hy.1
    have h2 := ltL_mean fo fp hn hi xs ys hx.2 hy.2
    have h3 := eqV_mean fo fp hn x y hx.1 hy.1
    have h4 := ltV_total fo hi x y (sane_floats hx.1) (sane_floats hy.1)
    rw [meanL, meanL, less_arr_cons, ← h1, ← h2, ← h3]
    simp only [ltL]
    by_cases e1 : ltV fo x y = true
    · simp [e1]
    · by_cases e2 : ltV fo y x = true
      · have e3 : eqV fo x y = false := by
          rw [Bool.eq_false_iff]
          intro e3
          rw [eqV_symm] at e3
          rw [eqV_lt fo _ _ e3] at e2
          simp at e2
        simp [e1, e2, e3]
      · have e3 : eqV fo x y = true := (h4.resolve_left e1).resolve_right e2
        simp [e1, e2, e3]
theorem ltM_mean (fo : FloatOrder F L) (fp : Bool) (hn : ∀ i j, i < j → fo.num i < fo.num j)
    (hi : ∀ i, fo.place (fo.ofInt i) ≠ none) :
    ∀ (ms ns : List (Bytes × Json F)), SaneM fo fp ms → SaneM fo fp ns →
    (ltM fo ms ns = true ↔ Less (.obj (meanM fo ms)) (.obj (meanM fo ns)))
  | xs, [], _, _ => by
    have : ltM fo xs [] = false := by cases xs <;> simp [ltM]
    simp [this, meanM, less_obj_nil]
  | [], (l, y) :: ys, _, _ => by
    simp only [ltM, meanM, true_iff]
    exact .objShort [] _ _
  | (k, x) :: xs, (l, y) :: ys, hx, hy => by
    rw [SaneM] at hx hy
    have h1 := ltV_mean fo fp hn hi x y hx.1 hy.1
    have h2 := ltM_mean fo fp hn hi xs ys hx.2 hy.2
    have h3 := eqV_mean fo fp hn x y hx.1 hy.1
    have h4 := ltV_total fo hi x y (sane_floats hx.1) (sane_floats hy.1)
    rw [meanM, meanM, less_obj_cons, ← h1, ← h2, ← h3, ← bytesLt_iff]
    simp only [ltM]
    by_cases k1 : bytesLt k l = true
    · simp [k1]
    by_cases k2 : bytesLt l k = true
    · have : k ≠ l := by
        rintro rfl
        exact k1 k2
      simp [k1, k2, this]
    obtain rfl := bytesLt_total (by simpa using k1) (by simpa using k2)
    by_cases e1 : ltV fo x y = true
    · simp [e1, k1]
    · by_cases e2 : ltV fo y x = true
      · have e3 : eqV fo x y = false := by
          rw [Bool.eq_false_iff]
          intro e3
          rw [eqV_symm] at e3
          rw [eqV_lt fo _ _ e3] at e2
          simp at e2
        simp [e1, e2, e3, k1]
      · have e3 : eqV fo x y = true := (h4.resolve_left e1).resolve_right e2
        simp [e1, e2, e3, k1]
end

end Verif.Json
