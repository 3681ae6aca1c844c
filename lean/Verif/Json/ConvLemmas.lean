import Verif.Json.ConvModel
import Verif.Json.PropsInsert
import Verif.Json.PropsWriter
import Verif.Json.CompareLemmas

/-!
# What the values of a type are, and lemmas about conversions
-/

namespace Verif.Json

open Spec

variable {F : Type}

namespace Spec

mutual
/-- the values of a type: integers in their range, `float`s that are `float`s, arrays of their length, maps in the
order of their keys, each key once (in a multimap as often as one likes) -/
def Has (c : Casts F) (lt : CVal F → CVal F → Bool) : CTy → CVal F → Prop
  | .null, .null => True
  | .bool, .bool _ => True
  | .str, .str _ => True
  | .int s w _, .int i => (w = 8 ∨ w = 16 ∨ w = 32 ∨ w = 64) ∧ inType s w i
  | .float, .flt x => c.round32 x = x
  | .double, .flt _ => True
  | .enum s w, .int i => (w = 8 ∨ w = 16 ∨ w = 32 ∨ w = 64) ∧ inType s w i
  | .vec t, .seq vs => ∀ v ∈ vs, Has c lt t v
  | .flist t, .seq vs => ∀ v ∈ vs, Has c lt t v
  | .valarray t, .seq vs => ∀ v ∈ vs, Has c lt t v
  | .array n t, .seq vs => vs.length = n ∧ ∀ v ∈ vs, Has c lt t v
  | .carray n t, .seq vs => vs.length = n ∧ ∀ v ∈ vs, Has c lt t v
  | .tuple ts, .seq vs => HasL c lt ts vs
  | .dict t, .dict ms => ms.Pairwise (fun a b => a.1 < b.1) ∧ ∀ e ∈ ms, Has c lt t e.2
  | .mdict t, .dict ms => ms.Pairwise (fun a b => a.1 ≤ b.1) ∧ ∀ e ∈ ms, Has c lt t e.2
  | .table k v, .table es => es.Pairwise (fun a b => lt a.1 b.1 = true) ∧ ∀ e ∈ es, Has c lt k e.1 ∧ Has c lt v e.2
  | .json, .json _ => True
  | _, _ => False
/-- the components of a tuple -/
def HasL (c : Casts F) (lt : CVal F → CVal F → Bool) : List CTy → List (CVal F) → Prop
  | [], [] => True
  | t :: ts, v :: vs => Has c lt t v ∧ HasL c lt ts vs
  | _, _ => False
end

/-- is it a string, or a JSON value that is one -/
def isText : CTy → CVal F → Bool
  | .str, _ => true
  | .json, .json (.str _) => true
  | _, _ => false

/-- is it a sequence, an array, a pair or tuple of just two, the first of them a string, or a JSON value like
that -/
def couple : CTy → CVal F → Bool
  | .vec t, .seq [a, _] => isText t a
  | .flist t, .seq [a, _] => isText t a
  | .valarray t, .seq [a, _] => isText t a
  | .array _ t, .seq [a, _] => isText t a
  | .carray _ t, .seq [a, _] => isText t a
  | .tuple [t, _], .seq [a, _] => isText t a
  | .json, .json (.arr [.str _, _]) => true
  | _, _ => false

mutual
/-- at every tuple, pair or entry of a map with other keys there is a component that is no `couple`, and no
multimap has a key twice -/
def Plain : CTy → CVal F → Prop
  | .vec t, .seq vs => ∀ v ∈ vs, Plain t v
  | .flist t, .seq vs => ∀ v ∈ vs, Plain t v
  | .valarray t, .seq vs => ∀ v ∈ vs, Plain t v
  | .array _ t, .seq vs => ∀ v ∈ vs, Plain t v
  | .carray _ t, .seq vs => ∀ v ∈ vs, Plain t v
  | .tuple ts, .seq vs => PlainL ts vs ∧ (ts = [] ∨ ∃ e ∈ ts.zip vs, couple e.1 e.2 = false)
  | .dict t, .dict ms => ∀ e ∈ ms, Plain t e.2
  | .mdict t, .dict ms => ms.Pairwise (fun a b => a.1 ≠ b.1) ∧ ∀ e ∈ ms, Plain t e.2
  | .table k v, .table es => ∀ e ∈ es, Plain k e.1 ∧ Plain v e.2 ∧ (couple k e.1 = false ∨ couple v e.2 = false)
  | _, _ => True
/-- the components of a tuple -/
def PlainL : List CTy → List (CVal F) → Prop
  | t :: ts, v :: vs => Plain t v ∧ PlainL ts vs
  | _, _ => True
end

mutual
/-- there is no multimap in the type -/
def NoMulti : CTy → Prop
  | .vec t => NoMulti t
  | .flist t => NoMulti t
  | .valarray t => NoMulti t
  | .array _ t => NoMulti t
  | .carray _ t => NoMulti t
  | .tuple ts => NoMultiL ts
  | .dict t => NoMulti t
  | .mdict _ => False
  | .table k v => NoMulti k ∧ NoMulti v
  | _ => True
/-- nor in its components -/
def NoMultiL : List CTy → Prop
  | [] => True
  | t :: ts => NoMulti t ∧ NoMultiL ts
end

end Spec

/-! ## Integers -/

theorem wrapTo_id {s : Bool} {w : Nat} {i : Int} (hw : w = 8 ∨ w = 16 ∨ w = 32 ∨ w = 64) (h : inType s w i) : wrapTo s w i = i := by
  rw [inType] at h
  rw [wrapTo]
  rcases hw with rfl | rfl | rfl | rfl <;> cases s <;> simp at h ⊢ <;> omega

theorem wrapTo_wrap {s : Bool} {w : Nat} {i : Int} (hw : w = 8 ∨ w = 16 ∨ w = 32 ∨ w = 64) (h : inType s w i) :
    wrapTo s w (wrapTo true 64 i) = i := by
  rw [inType] at h
  rw [wrapTo, wrapTo]
  rcases hw with rfl | rfl | rfl | rfl <;> cases s <;> simp at h ⊢ <;> omega

theorem wrapTo_in {s : Bool} {w : Nat} {i : Int} (hw : w = 8 ∨ w = 16 ∨ w = 32 ∨ w = 64) : inType s w (wrapTo s w i) := by
  rw [inType, wrapTo]
  rcases hw with rfl | rfl | rfl | rfl <;> cases s <;> simp <;> omega

/-! ## Loops -/

theorem bind_eq_ok {A B : Type} {x : Outcome A} {f : A → Outcome B} {b : B} :
    (x >>= f) = .ok b ↔ ∃ a, x = .ok a ∧ f a = .ok b := by
  cases x <;> simp

theorem getEach_ok {A B : Type} {f : A → Outcome B} : ∀ {xs : List A} {ys : List B},
    xs.map f = ys.map .ok → getEach f xs = .ok ys
  | [], [], _ => rfl
  | [], y :: ys, h => by simp at h
  | x :: xs, [], h => by simp at h
  | x :: xs, y :: ys, h => by
    rw [List.map_cons, List.map_cons] at h
    obtain ⟨h1, h2⟩ := List.cons.inj h
    rw [getEach, h1, Outcome.bind_ok, getEach_ok h2, Outcome.bind_ok]

theorem getEach_eq_ok {A B : Type} {f : A → Outcome B} : ∀ {xs : List A} {ys : List B},
    getEach f xs = .ok ys ↔ xs.map f = ys.map .ok
  | xs, ys => by
    refine ⟨fun h => ?_, getEach_ok⟩
    induction xs generalizing ys with
    | nil => rw [getEach] at h; cases h; rfl
    | cons x xs ih =>
      rw [getEach, bind_eq_ok] at h
      obtain ⟨v, hv, h⟩ := h
      rw [bind_eq_ok] at h
      obtain ⟨vs, hvs, h⟩ := h
      cases h
      rw [List.map_cons, List.map_cons, hv, ih _ hvs]

theorem getEach_map {A B C : Type} (f : B → Outcome C) (g : A → B) : ∀ xs : List A,
    getEach f (xs.map g) = getEach (fun x => f (g x)) xs
  | [] => rfl
  | x :: xs => by rw [List.map_cons, getEach, getEach, getEach_map f g xs]

theorem getEach_id {A : Type} {f : A → Outcome A} {xs : List A} (h : ∀ x ∈ xs, f x = .ok x) : getEach f xs = .ok xs :=
  getEach_ok (List.map_congr_left h)

/-- the exceptions of a conversion that fails -/
def Refusal (k : String) : Prop := k = "type_error.302" ∨ k = "type_error.304"

theorem getEach_throws {A B : Type} {E : String → Prop} {f : A → Outcome B} : ∀ {xs : List A},
    (∀ x ∈ xs, (∃ v, f x = .ok v) ∨ ∃ k, E k ∧ f x = .throws k) → (∃ x ∈ xs, ∃ k, E k ∧ f x = .throws k) →
    ∃ k, E k ∧ getEach f xs = .throws k
  | [], _, h => by obtain ⟨x, hx, _⟩ := h; cases hx
  | x :: xs, h1, h2 => by
    rw [getEach]
    rcases h1 x List.mem_cons_self with ⟨v, hv⟩ | ⟨k, hE, hk⟩
    · obtain ⟨y, hy, k, hE, hk⟩ := h2
      have : y ∈ xs := by
        rcases List.mem_cons.mp hy with rfl | h
        · rw [hv] at hk; cases hk
        · exact h
      obtain ⟨k', hE', hk'⟩ := getEach_throws (fun z hz => h1 z (List.mem_cons_of_mem _ hz)) ⟨y, this, k, hE, hk⟩
      exact ⟨k', hE', by rw [hv, Outcome.bind_ok, hk', Outcome.bind_throws]⟩
    · exact ⟨k, hE, by rw [hk, Outcome.bind_throws]⟩

theorem getN_eq (f : Json F → Outcome (CVal F)) (xs : List (Json F)) : ∀ (n i : Nat), i + n ≤ xs.length →
    getN f (.arr xs) n i = getEach f ((xs.drop i).take n)
  | 0, i, _ => by rw [getN, List.take_zero, getEach]
  | n + 1, i, h => by
    have hi : i < xs.length := by omega
    rw [getN, atIndex, List.drop_eq_getElem_cons hi, List.take_succ_cons, getEach, ← getN_eq f xs n (i + 1) (by omega)]
    simp only [List.getElem?_eq_getElem hi, Outcome.bind_ok]

theorem getN_short (f : Json F → Outcome (CVal F)) (xs : List (Json F)) : ∀ (n i : Nat), i ≤ xs.length → xs.length < i + n →
    getN f (.arr xs) n i = (getEach f (xs.drop i) >>= fun _ => .throws "out_of_range.401")
  | 0, i, _, h => by omega
  | n + 1, i, hi, h => by
    rw [getN, atIndex]
    by_cases h' : i < xs.length
    · rw [List.drop_eq_getElem_cons h', getEach, getN_short f xs n (i + 1) (by omega) (by omega)]
      simp only [List.getElem?_eq_getElem h', Outcome.bind_ok]
      cases f xs[i] with
      | ok v =>
        simp only [Outcome.bind_ok]
        cases getEach f (xs.drop (i + 1)) <;> rfl
      | _ => rfl
    · have : i = xs.length := by omega
      rw [List.getElem?_eq_none (by omega), this, List.drop_length, getEach]
      rfl

/-! ## Maps -/

theorem emplace_sorted (g : CVal F → Json F) (ms : List (Bytes × CVal F)) (h : ms.Pairwise (fun a b => a.1 < b.1)) :
    ms.foldl (fun ns e => emplaceKey e.1 (g e.2) ns) [] = ms.map fun e => (e.1, g e.2) := by
  have hs : SortedM (ms.map fun e => (e.1, g e.2)) := by
    rw [SortedM, List.pairwise_map]
    exact h
  have h1 : ms.foldl (fun ns e => emplaceKey e.1 (g e.2) ns) [] =
      (ms.map fun e => (e.1, g e.2)).foldl (fun ns e => emplaceKey e.1 e.2 ns) [] := by
    rw [List.foldl_map]
  obtain ⟨h2, h3⟩ := emplaceAll (ms.map fun e => (e.1, g e.2)) [] List.Pairwise.nil
  rw [h1]
  exact map_ext h2 hs fun k => by rw [h3 k]; rfl

theorem tableInsert_last (lt : CVal F → CVal F → Bool) (k v : CVal F) : ∀ (es : List (CVal F × CVal F)),
    (∀ e ∈ es, lt e.1 k = true) → tableInsert lt k v es = es ++ [(k, v)]
  | [], _ => rfl
  | e :: es, h => by
    rw [tableInsert, if_pos (h e List.mem_cons_self), tableInsert_last lt k v es fun x hx => h x (List.mem_cons_of_mem _ hx)]
    rfl

theorem table_sorted (lt : CVal F → CVal F → Bool) : ∀ (es acc : List (CVal F × CVal F)),
    (acc ++ es).Pairwise (fun a b => lt a.1 b.1 = true) →
    es.foldl (fun t e => tableInsert lt e.1 e.2 t) acc = acc ++ es
  | [], acc, _ => by simp
  | e :: es, acc, h => by
    rw [List.foldl_cons, tableInsert_last lt e.1 e.2 acc fun x hx => (List.pairwise_append.mp h).2.2 x hx e List.mem_cons_self,
      table_sorted lt es _ (by simpa using h)]
    simp

/-! ## Lists in braces -/

theorem ofBraces_arr {js : List (Json F)} (h : ∃ j ∈ js, pairOf j = none) : ofBraces js = .arr js := by
  rw [ofBraces.eq_def]
  split
  · obtain ⟨j, hj, _⟩ := h; cases hj
  · rw [(C137_array_partial js).1 h]

theorem ofBraces_obj {js : List (Json F)} (hne : js ≠ []) (h : ∀ j ∈ js, pairOf j ≠ none) : ∃ ms, ofBraces js = .obj ms := by
  rw [ofBraces.eq_def]
  split
  · exact absurd rfl hne
  · obtain ⟨ms, h1, _⟩ := (C137_object_partial js none (by simp)).1 h
    rw [h1]
    exact ⟨ms, rfl⟩

theorem ofBraces_str (js : List (Json F)) (s : Bytes) : ofBraces js ≠ .str s := by
  by_cases h : ∃ j ∈ js, pairOf j = none
  · rw [ofBraces_arr h]; simp
  · by_cases hne : js = []
    · subst hne; simp [ofBraces]
    · obtain ⟨ms, h1⟩ := ofBraces_obj hne (fun j hj hp => h ⟨j, hj, hp⟩)
      rw [h1]; simp

theorem pairOf_none {v : Json F} (h : ∀ k x, v ≠ .arr [.str k, x]) : pairOf v = none := by
  rw [pairOf.eq_def]
  split
  · exact absurd rfl (h _ _)
  · rfl

theorem pairOf_two {a b : Json F} (h : ∀ s, a ≠ .str s) : pairOf (.arr [a, b]) = none :=
  pairOf_none fun k x e => by simp at e; exact h k e.1

theorem toJson_text {c : Casts F} {lt : CVal F → CVal F → Bool} (t : CTy) (v : CVal F) (h : Has c lt t v) :
    (isText t v = true ↔ ∃ s, toJson t v = .str s) := by
  cases t with
  | int s w o => cases s <;> cases v <;> simp [Has, isText, toJson] at h ⊢
  | json => cases v with
    | json j => cases j <;> simp [isText, toJson]
    | _ => simp [Has] at h
  | tuple ts => cases v with
    | seq vs => simp [isText, toJson, ofBraces_str]
    | _ => simp [Has] at h
  | _ => cases v <;> simp [Has, isText, toJson] at h ⊢

theorem pairOf_map {c : Casts F} {lt : CVal F → CVal F → Bool} (t : CTy) (vs : List (CVal F)) (h : ∀ v ∈ vs, Has c lt t v) :
    pairOf (.arr (vs.map (toJson t))) = none ↔ (match vs with | [a, _] => isText t a | _ => false) = false := by
  match vs with
  | [] => simp [pairOf]
  | [a] => simp [pairOf]
  | [a, b] =>
    simp only [List.map_cons, List.map_nil]
    have ha := toJson_text t a (h a (by simp))
    cases hT : isText t a with
    | true =>
      obtain ⟨s, hs⟩ := ha.mp hT
      rw [hs]; simp [pairOf]
    | false =>
      rw [pairOf_two fun s hs => ?_]
      · simp
      · rw [ha.mpr ⟨s, hs⟩] at hT; cases hT
  | a :: b :: d :: vs => simp [pairOf]

theorem hasL_length {c : Casts F} {lt : CVal F → CVal F → Bool} : ∀ (ts : List CTy) (vs : List (CVal F)), HasL c lt ts vs → ts.length = vs.length
  | [], [], _ => rfl
  | [], v :: vs, h => by simp [HasL] at h
  | t :: ts, [], h => by simp [HasL] at h
  | t :: ts, v :: vs, h => by
    rw [HasL] at h
    simp [hasL_length ts vs h.2]

theorem toJsonL_length {c : Casts F} {lt : CVal F → CVal F → Bool} : ∀ (ts : List CTy) (vs : List (CVal F)), HasL c lt ts vs → (toJsonL ts vs).length = ts.length
  | [], [], _ => rfl
  | [], v :: vs, h => by simp [HasL] at h
  | t :: ts, [], h => by simp [HasL] at h
  | t :: ts, v :: vs, h => by
    rw [HasL] at h
    simp [toJsonL, toJsonL_length ts vs h.2]

/-- what in a tuple looks like a member is just what is a `couple` -/
theorem pairOf_couple {c : Casts F} {lt : CVal F → CVal F → Bool} (t : CTy) (v : CVal F) (h : Has c lt t v) :
    pairOf (toJson t v) = none ↔ couple t v = false := by
  cases t with
  | int s w o => cases s <;> cases v <;> simp [Has, couple, toJson, pairOf] at h ⊢
  | json => cases v with
    | json j =>
      rw [toJson]
      cases hp : pairOf j with
      | none =>
        simp only [true_iff]
        rw [couple.eq_def]
        split <;> try rfl
        all_goals simp_all [pairOf]
      | some e =>
        rw [pairOf.eq_def] at hp
        split at hp
        · simp [couple]
        · cases hp
    | _ => simp [Has] at h
  | vec t => cases v with
    | seq vs =>
      rw [toJson, pairOf_map t vs (by simpa [Has] using h)]
      match vs with
      | [] | [_] | [_, _] | _ :: _ :: _ :: _ => simp [couple]
    | _ => simp [Has] at h
  | flist t => cases v with
    | seq vs =>
      rw [toJson, pairOf_map t vs (by simpa [Has] using h)]
      match vs with
      | [] | [_] | [_, _] | _ :: _ :: _ :: _ => simp [couple]
    | _ => simp [Has] at h
  | valarray t => cases v with
    | seq vs =>
      rw [toJson, pairOf_map t vs (by simpa [Has] using h)]
      match vs with
      | [] | [_] | [_, _] | _ :: _ :: _ :: _ => simp [couple]
    | _ => simp [Has] at h
  | array n t => cases v with
    | seq vs =>
      rw [toJson, pairOf_map t vs (by rw [Has] at h; exact h.2)]
      match vs with
      | [] | [_] | [_, _] | _ :: _ :: _ :: _ => simp [couple]
    | _ => simp [Has] at h
  | carray n t => cases v with
    | seq vs =>
      rw [toJson, pairOf_map t vs (by rw [Has] at h; exact h.2)]
      match vs with
      | [] | [_] | [_, _] | _ :: _ :: _ :: _ => simp [couple]
    | _ => simp [Has] at h
  | tuple ts => cases v with
    | seq vs =>
      rw [Has] at h
      rw [toJson]
      have hl := hasL_length ts vs h
      by_cases hp : ∃ j ∈ toJsonL ts vs, pairOf j = none
      · rw [ofBraces_arr hp]
        match ts, vs, h with
        | [], [], _ => simp [toJsonL, pairOf, couple]
        | [t], [v], _ => simp [toJsonL, pairOf, couple]
        | [t, t'], [v, v'], h =>
          simp only [HasL] at h
          have ha := toJson_text t v h.1
          simp only [toJsonL, couple]
          cases hT : isText t v with
          | true =>
            obtain ⟨s, hs⟩ := ha.mp hT
            rw [hs]; simp [pairOf]
          | false =>
            simp [pairOf_two fun s hs => by rw [ha.mpr ⟨s, hs⟩] at hT; cases hT]
        | t :: t' :: t'' :: ts, v :: v' :: v'' :: vs, _ => simp [toJsonL, pairOf, couple]
      · by_cases hne : toJsonL ts vs = []
        · have := toJsonL_length ts vs h
          rw [hne] at this
          have ht : ts = [] := List.length_eq_zero_iff.mp this.symm
          subst ht
          rw [hne]
          simp [ofBraces, pairOf, couple]
        · obtain ⟨ms, h1⟩ := ofBraces_obj hne (fun j hj hp' => hp ⟨j, hj, hp'⟩)
          rw [h1]
          match ts, vs, h with
          | [], [], _ => simp [pairOf, couple]
          | [t], [v], _ => simp [pairOf, couple]
          | [t, t'], [v, v'], h =>
            simp only [HasL] at h
            have ha := toJson_text t v h.1
            simp only [couple]
            cases hT : isText t v with
            | true =>
              obtain ⟨s, hs⟩ := ha.mp hT
              exact absurd ⟨.str s, by simp [toJsonL, hs], by simp [pairOf]⟩ hp
            | false => simp [pairOf]
          | t :: t' :: t'' :: ts, v :: v' :: v'' :: vs, _ => simp [pairOf, couple]
    | _ => simp [Has] at h
  | table k v' => cases v with
    | table es =>
      rw [toJson]
      match es with
      | [] => simp [pairOf, couple]
      | [a] => simp [pairOf, couple]
      | [a, b] =>
        simp only [List.map_cons, List.map_nil, couple, iff_true]
        exact pairOf_two fun s hs => ofBraces_str _ s hs
      | a :: b :: d :: vs => simp [pairOf, couple]
    | _ => simp [Has] at h
  | _ => cases v <;> simp [Has, couple, toJson, pairOf] at h ⊢

theorem exists_pairOf {c : Casts F} {lt : CVal F → CVal F → Bool} : ∀ (ts : List CTy) (vs : List (CVal F)), HasL c lt ts vs →
    ((∃ j ∈ toJsonL ts vs, pairOf j = none) ↔ ∃ e ∈ ts.zip vs, couple e.1 e.2 = false)
  | [], [], _ => by simp [toJsonL]
  | [], v :: vs, h => by simp [HasL] at h
  | t :: ts, [], h => by simp [HasL] at h
  | t :: ts, v :: vs, h => by
    rw [HasL] at h
    have h1 := pairOf_couple t v h.1
    have h2 := exists_pairOf ts vs h.2
    simp only [toJsonL, List.zip_cons_cons, List.mem_cons, or_and_right, exists_or, exists_eq_left]
    rw [h1, h2]

/-! ## There and back -/

mutual
theorem back_ok (c : Casts F) (lt : CVal F → CVal F → Bool) : ∀ (t : CTy) (v : CVal F), Has c lt t v → Plain t v →
    t = .null ∨ get c lt t (toJson t v) = .ok v
  | .null, _, _, _ => .inl rfl
  | .bool, v, h, _ => by cases v <;> simp [Has, toJson, get] at h ⊢
  | .str, v, h, _ => by cases v <;> simp [Has, toJson, get] at h ⊢
  | .int s w o, v, h, _ => by
    cases v with
    | int i =>
      rw [Has] at h
      cases s with
      | true => simp [toJson, get, getInt, wrapTo_id h.1 h.2]
      | false =>
        have : ((i.toNat : Nat) : Int) = i := by
          have := h.2
          simp [inType] at this
          omega
        simp [toJson, get, getInt, this, wrapTo_id h.1 h.2]
    | _ => simp [Has] at h
  | .float, v, h, _ => by
    cases v with
    | flt x => rw [Has] at h; simp [toJson, get, getFloat, h]
    | _ => simp [Has] at h
  | .double, v, h, _ => by cases v <;> simp [Has, toJson, get, getFloat] at h ⊢
  | .enum s w, v, h, _ => by
    cases v with
    | int i => rw [Has] at h; simp [toJson, get, getInt, wrapTo_wrap h.1 h.2]
    | _ => simp [Has] at h
  | .vec t, v, h, hp => by
    cases v with
    | seq vs =>
      rw [Has] at h
      rw [Plain] at hp
      right
      rw [toJson, get, getEach_map, getEach_id fun x hx => back_elem c lt t x (h x hx) (hp x hx), Outcome.bind_ok]
    | _ => simp [Has] at h
  | .flist t, v, h, hp => by
    cases v with
    | seq vs =>
      rw [Has] at h
      rw [Plain] at hp
      right
      rw [toJson, get, ← List.map_reverse, getEach_map,
        getEach_id fun x hx => back_elem c lt t x (h x (by simpa using hx)) (hp x (by simpa using hx)), Outcome.bind_ok, List.reverse_reverse]
    | _ => simp [Has] at h
  | .valarray t, v, h, hp => by
    cases v with
    | seq vs =>
      rw [Has] at h
      rw [Plain] at hp
      right
      rw [toJson, get, getEach_map, getEach_id fun x hx => back_elem c lt t x (h x hx) (hp x hx), Outcome.bind_ok]
    | _ => simp [Has] at h
  | .array n t, v, h, hp => by
    cases v with
    | seq vs =>
      rw [Has] at h
      rw [Plain] at hp
      right
      rw [toJson, get, getN_eq _ _ _ _ (by simp [h.1]), List.drop_zero, List.take_of_length_le (by simp [h.1]), getEach_map,
        getEach_id fun x hx => back_elem c lt t x (h.2 x hx) (hp x hx), Outcome.bind_ok]
    | _ => simp [Has] at h
  | .carray n t, v, h, hp => by
    cases v with
    | seq vs =>
      rw [Has] at h
      rw [Plain] at hp
      right
      rw [toJson, get, getN_eq _ _ _ _ (by simp [h.1]), List.drop_zero, List.take_of_length_le (by simp [h.1]), getEach_map,
        getEach_id fun x hx => back_elem c lt t x (h.2 x hx) (hp x hx), Outcome.bind_ok]
    | _ => simp [Has] at h
  | .tuple ts, v, h, hp => by
    cases v with
    | seq vs =>
      rw [Has] at h
      rw [Plain] at hp
      right
      rw [toJson, get]
      rcases hp.2 with rfl | hc
      · cases vs with
        | nil => rw [getL]; rfl
        | cons v vs => simp [HasL] at h
      · rw [ofBraces_arr ((exists_pairOf ts vs h).mpr hc)]
        have := back_okL c lt ts vs [] h hp.1
        rw [List.nil_append, List.length_nil] at this
        rw [this, Outcome.bind_ok]
    | _ => simp [Has] at h
  | .dict t, v, h, hp => by
    cases v with
    | dict ms =>
      rw [Has] at h
      rw [Plain] at hp
      right
      rw [toJson, emplace_sorted _ _ h.1, get, getEach_map, getEach_id fun x hx => ?_, Outcome.bind_ok]
      rw [back_elem c lt t x.2 (h.2 x hx) (hp x hx), Outcome.bind_ok]
    | _ => simp [Has] at h
  | .mdict t, v, h, hp => by
    cases v with
    | dict ms =>
      rw [Has] at h
      rw [Plain] at hp
      right
      have hs : ms.Pairwise (fun a b => a.1 < b.1) := by
        refine List.Pairwise.imp₂ (fun a b h1 h2 => ?_) h.1 hp.1
        rcases List.le_iff_lt_or_eq.mp h1 with h | h
        · exact h
        · exact absurd h h2
      rw [toJson, emplace_sorted _ _ hs, get, getEach_map, getEach_id fun x hx => ?_, Outcome.bind_ok]
      rw [back_elem c lt t x.2 (h.2 x hx) (hp.2 x hx), Outcome.bind_ok]
    | _ => simp [Has] at h
  | .table k v', v, h, hp => by
    cases v with
    | table es =>
      rw [Has] at h
      rw [Plain] at hp
      right
      rw [toJson, get, getEach_map, getEach_id fun x hx => ?_, Outcome.bind_ok, table_sorted lt es [] (by simpa using h.1)]
      · rfl
      · obtain ⟨h1, h2⟩ := h.2 x hx
        obtain ⟨h3, h4, h5⟩ := hp x hx
        have hn : ∃ j ∈ [toJson k x.1, toJson v' x.2], pairOf j = none := by
          rcases h5 with h5 | h5
          · exact ⟨_, by simp, (pairOf_couple k x.1 h1).mpr h5⟩
          · exact ⟨_, by simp, (pairOf_couple v' x.2 h2).mpr h5⟩
        rw [ofBraces_arr hn, getEntry]
        simp [atIndex, back_elem c lt k x.1 h1 h3, back_elem c lt v' x.2 h2 h4]
    | _ => simp [Has] at h
  | .json, v, h, _ => by cases v <;> simp [Has, toJson, get] at h ⊢

theorem back_elem (c : Casts F) (lt : CVal F → CVal F → Bool) (t : CTy) (v : CVal F) (h : Has c lt t v) (hp : Plain t v) :
    get c lt t (toJson t v) = .ok v := by
  rcases back_ok c lt t v h hp with rfl | h'
  · cases v <;> simp [Has, toJson, get] at h ⊢
  · exact h'

theorem back_okL (c : Casts F) (lt : CVal F → CVal F → Bool) : ∀ (ts : List CTy) (vs : List (CVal F)) (pre : List (Json F)),
    HasL c lt ts vs → PlainL ts vs → getL c lt ts pre.length (.arr (pre ++ toJsonL ts vs)) = .ok vs
  | [], [], _, _, _ => by rw [getL]
  | [], v :: vs, _, h, _ => by simp [HasL] at h
  | t :: ts, [], _, h, _ => by simp [HasL] at h
  | t :: ts, v :: vs, pre, h, hp => by
    rw [HasL] at h
    rw [PlainL] at hp
    have := back_okL c lt ts vs (pre ++ [toJson t v]) h.2 hp.2
    rw [List.length_append, List.length_singleton, List.append_assoc, List.singleton_append] at this
    rw [getL, toJsonL, this, atIndex]
    simp [back_elem c lt t v h.1 hp.1]
end

theorem split_elems {A : Type} {P : A → Prop} {f : A → Outcome A} {xs : List A}
    (h1 : ∀ x ∈ xs, P x → f x = .ok x) (h2 : ∀ x ∈ xs, ¬ P x → ∃ k, Refusal k ∧ f x = .throws k) (h : ¬ ∀ x ∈ xs, P x) :
    ∃ k, Refusal k ∧ getEach f xs = .throws k := by
  refine getEach_throws (fun x hx => ?_) ?_
  · by_cases hp : P x
    · exact .inl ⟨x, h1 x hx hp⟩
    · exact .inr (h2 x hx hp)
  · obtain ⟨x, hx⟩ := Classical.not_forall.mp h
    obtain ⟨hx, hp⟩ := Classical.not_imp.mp hx
    exact ⟨x, hx, h2 x hx hp⟩

mutual
theorem back_throws (c : Casts F) (lt : CVal F → CVal F → Bool) : ∀ (t : CTy) (v : CVal F), NoMulti t → Has c lt t v → ¬ Plain t v →
    ∃ k, Refusal k ∧ get c lt t (toJson t v) = .throws k
  | .null, v, _, h, hp => by cases v <;> simp [Has, Plain] at h hp
  | .bool, v, _, h, hp => by cases v <;> simp [Has, Plain] at h hp
  | .str, v, _, h, hp => by cases v <;> simp [Has, Plain] at h hp
  | .int s w o, v, _, h, hp => by cases v <;> simp [Has, Plain] at h hp
  | .float, v, _, h, hp => by cases v <;> simp [Has, Plain] at h hp
  | .double, v, _, h, hp => by cases v <;> simp [Has, Plain] at h hp
  | .enum s w, v, _, h, hp => by cases v <;> simp [Has, Plain] at h hp
  | .json, v, _, h, hp => by cases v <;> simp [Has, Plain] at h hp
  | .mdict t, v, hm, h, hp => by simp [NoMulti] at hm
  | .vec t, v, hm, h, hp => by
    cases v with
    | seq vs =>
      rw [Has] at h
      rw [Plain] at hp
      rw [NoMulti] at hm
      rw [toJson, get, getEach_map]
      obtain ⟨k, hk, he⟩ := split_elems (fun x hx => back_elem c lt t x (h x hx))
        (fun x hx => back_throws c lt t x hm (h x hx)) hp
      exact ⟨k, hk, by rw [he, Outcome.bind_throws]⟩
    | _ => simp [Has] at h
  | .flist t, v, hm, h, hp => by
    cases v with
    | seq vs =>
      rw [Has] at h
      rw [Plain] at hp
      rw [NoMulti] at hm
      rw [toJson, get, ← List.map_reverse, getEach_map]
      obtain ⟨k, hk, he⟩ := split_elems (P := Plain t) (xs := vs.reverse)
        (fun x hx => back_elem c lt t x (h x (by simpa using hx)))
        (fun x hx => back_throws c lt t x hm (h x (by simpa using hx))) (by simpa using hp)
      exact ⟨k, hk, by rw [he, Outcome.bind_throws]⟩
    | _ => simp [Has] at h
  | .valarray t, v, hm, h, hp => by
    cases v with
    | seq vs =>
      rw [Has] at h
      rw [Plain] at hp
      rw [NoMulti] at hm
      rw [toJson, get, getEach_map]
      obtain ⟨k, hk, he⟩ := split_elems (fun x hx => back_elem c lt t x (h x hx))
        (fun x hx => back_throws c lt t x hm (h x hx)) hp
      exact ⟨k, hk, by rw [he, Outcome.bind_throws]⟩
    | _ => simp [Has] at h
  | .array n t, v, hm, h, hp => by
    cases v with
    | seq vs =>
      rw [Has] at h
      rw [Plain] at hp
      rw [NoMulti] at hm
      rw [toJson, get, getN_eq _ _ _ _ (by simp [h.1]), List.drop_zero, List.take_of_length_le (by simp [h.1]), getEach_map]
      obtain ⟨k, hk, he⟩ := split_elems (fun x hx => back_elem c lt t x (h.2 x hx))
        (fun x hx => back_throws c lt t x hm (h.2 x hx)) hp
      exact ⟨k, hk, by rw [he, Outcome.bind_throws]⟩
    | _ => simp [Has] at h
  | .carray n t, v, hm, h, hp => by
    cases v with
    | seq vs =>
      rw [Has] at h
      rw [Plain] at hp
      rw [NoMulti] at hm
      rw [toJson, get, getN_eq _ _ _ _ (by simp [h.1]), List.drop_zero, List.take_of_length_le (by simp [h.1]), getEach_map]
      obtain ⟨k, hk, he⟩ := split_elems (fun x hx => back_elem c lt t x (h.2 x hx))
        (fun x hx => back_throws c lt t x hm (h.2 x hx)) hp
      exact ⟨k, hk, by rw [he, Outcome.bind_throws]⟩
    | _ => simp [Has] at h
  | .dict t, v, hm, h, hp => by
    cases v with
    | dict ms =>
      rw [Has] at h
      rw [Plain] at hp
      rw [NoMulti] at hm
      rw [toJson, emplace_sorted _ _ h.1, get, getEach_map]
      obtain ⟨k, hk, he⟩ := split_elems (P := fun e : Bytes × CVal F => Plain t e.2)
        (f := fun e => get c lt t (toJson t e.2) >>= fun v => .ok (e.1, v)) (xs := ms)
        (fun x hx hq => by rw [back_elem c lt t x.2 (h.2 x hx) hq, Outcome.bind_ok])
        (fun x hx hq => by
          obtain ⟨k, hk, he⟩ := back_throws c lt t x.2 hm (h.2 x hx) hq
          exact ⟨k, hk, by rw [he, Outcome.bind_throws]⟩) hp
      exact ⟨k, hk, by rw [he, Outcome.bind_throws]⟩
    | _ => simp [Has] at h
  | .table t u, v, hm, h, hp => by
    cases v with
    | table es =>
      rw [Has] at h
      rw [Plain] at hp
      rw [NoMulti] at hm
      rw [toJson, get, getEach_map]
      obtain ⟨k, hk, he⟩ := split_elems
        (P := fun e : CVal F × CVal F => Plain t e.1 ∧ Plain u e.2 ∧ (couple t e.1 = false ∨ couple u e.2 = false))
        (f := fun e => getEntry (get c lt t) (get c lt u) (ofBraces [toJson t e.1, toJson u e.2])) (xs := es)
        (fun x hx hq => by
          have hn : ∃ j ∈ [toJson t x.1, toJson u x.2], pairOf j = none := by
            rcases hq.2.2 with h5 | h5
            · exact ⟨_, by simp, (pairOf_couple t x.1 (h.2 x hx).1).mpr h5⟩
            · exact ⟨_, by simp, (pairOf_couple u x.2 (h.2 x hx).2).mpr h5⟩
          rw [ofBraces_arr hn, getEntry]
          simp [atIndex, back_elem c lt t x.1 (h.2 x hx).1 hq.1, back_elem c lt u x.2 (h.2 x hx).2 hq.2.1])
        (fun x hx hq => by
          by_cases hn : ∃ j ∈ [toJson t x.1, toJson u x.2], pairOf j = none
          · rw [ofBraces_arr hn, getEntry]
            have hc : couple t x.1 = false ∨ couple u x.2 = false := by
              obtain ⟨j, hj, hj'⟩ := hn
              rcases List.mem_cons.mp hj with rfl | hj
              · exact .inl ((pairOf_couple t x.1 (h.2 x hx).1).mp hj')
              · rcases List.mem_cons.mp hj with rfl | hj
                · exact .inr ((pairOf_couple u x.2 (h.2 x hx).2).mp hj')
                · cases hj
            by_cases hp1 : Plain t x.1
            · have hp2 : ¬ Plain u x.2 := fun hp2 => hq ⟨hp1, hp2, hc⟩
              obtain ⟨k, hk, he⟩ := back_throws c lt u x.2 hm.2 (h.2 x hx).2 hp2
              exact ⟨k, hk, by simp [atIndex, back_elem c lt t x.1 (h.2 x hx).1 hp1, he]⟩
            · obtain ⟨k, hk, he⟩ := back_throws c lt t x.1 hm.1 (h.2 x hx).1 hp1
              exact ⟨k, hk, by simp [atIndex, he]⟩
          · obtain ⟨ms, h1⟩ := ofBraces_obj (js := [toJson t x.1, toJson u x.2]) (by simp) (fun j hj hp' => hn ⟨j, hj, hp'⟩)
            rw [h1]
            exact ⟨_, .inl rfl, rfl⟩) hp
      exact ⟨k, hk, by rw [he, Outcome.bind_throws]⟩
    | _ => simp [Has] at h
  | .tuple ts, v, hm, h, hp => by
    cases v with
    | seq vs =>
      rw [Has] at h
      rw [Plain] at hp
      rw [NoMulti] at hm
      rw [toJson, get]
      by_cases ht : ts = []
      · subst ht
        cases vs with
        | nil => simp [PlainL] at hp
        | cons v vs => simp [HasL] at h
      · by_cases hc : ∃ e ∈ ts.zip vs, couple e.1 e.2 = false
        · rw [ofBraces_arr ((exists_pairOf ts vs h).mpr hc)]
          have hn : ¬ PlainL ts vs := fun hq => hp ⟨hq, .inr hc⟩
          obtain ⟨k, hk, he⟩ := back_throwsL c lt ts vs [] hm h hn
          rw [List.nil_append, List.length_nil] at he
          exact ⟨k, hk, by rw [he, Outcome.bind_throws]⟩
        · have hl := toJsonL_length ts vs h
          obtain ⟨ms, h1⟩ := ofBraces_obj (js := toJsonL ts vs)
            (fun he => ht (List.length_eq_zero_iff.mp (by rw [← hl, he]; rfl)))
            (fun j hj hp' => hc ((exists_pairOf ts vs h).mp ⟨j, hj, hp'⟩))
          rw [h1]
          cases ts with
          | nil => exact absurd rfl ht
          | cons t ts => exact ⟨_, .inr rfl, by rw [getL]; rfl⟩
    | _ => simp [Has] at h

theorem back_throwsL (c : Casts F) (lt : CVal F → CVal F → Bool) : ∀ (ts : List CTy) (vs : List (CVal F)) (pre : List (Json F)),
    NoMultiL ts → HasL c lt ts vs → ¬ PlainL ts vs →
    ∃ k, Refusal k ∧ getL c lt ts pre.length (.arr (pre ++ toJsonL ts vs)) = .throws k
  | [], [], _, _, _, hp => by simp [PlainL] at hp
  | [], v :: vs, _, _, h, _ => by simp [HasL] at h
  | t :: ts, [], _, _, h, _ => by simp [HasL] at h
  | t :: ts, v :: vs, pre, hm, h, hp => by
    rw [HasL] at h
    rw [PlainL] at hp
    rw [NoMultiL] at hm
    rw [getL, toJsonL, atIndex]
    by_cases hq : Plain t v
    · obtain ⟨k, hk, he⟩ := back_throwsL c lt ts vs (pre ++ [toJson t v]) hm.2 h.2 fun h' => hp ⟨hq, h'⟩
      rw [List.length_append, List.length_singleton, List.append_assoc, List.singleton_append] at he
      exact ⟨k, hk, by simp [back_elem c lt t v h.1 hq, he]⟩
    · obtain ⟨k, hk, he⟩ := back_throws c lt t v hm.1 h.1 hq
      exact ⟨k, hk, by simp [he]⟩
end

/-! ## Written and read in between -/

/-- what can be written and read back -/
def Fit (fl : Floats F) (j : Json F) : Prop :=
  Held j ∧ Ordered j ∧ (∀ s ∈ strings j, Utf8 s) ∧ ∀ x ∈ floats j, fl.finite x = true

theorem heldL_iff {xs : List (Json F)} : HeldL xs ↔ ∀ x ∈ xs, Held x := by
  induction xs with
  | nil => simp [HeldL]
  | cons x xs ih => simp [HeldL, ih]

theorem heldM_iff {ms : List (Bytes × Json F)} : HeldM ms ↔ ∀ e ∈ ms, (∀ b ∈ e.1, b < 256) ∧ Held e.2 := by
  induction ms with
  | nil => simp [HeldM]
  | cons e ms ih => obtain ⟨k, v⟩ := e; simp [HeldM, ih, and_assoc]

theorem mem_stringsL {s : Bytes} {xs : List (Json F)} : s ∈ stringsL xs ↔ ∃ x ∈ xs, s ∈ strings x := by
  induction xs with
  | nil => simp [stringsL]
  | cons x xs ih => simp [stringsL, ih]

theorem mem_stringsM {s : Bytes} {ms : List (Bytes × Json F)} : s ∈ stringsM ms ↔ ∃ e ∈ ms, s = e.1 ∨ s ∈ strings e.2 := by
  induction ms with
  | nil => simp [stringsM]
  | cons e ms ih => obtain ⟨k, v⟩ := e; simp [stringsM, ih, or_assoc]

theorem mem_floatsL {x : F} {xs : List (Json F)} : x ∈ floatsL xs ↔ ∃ j ∈ xs, x ∈ floats j := by
  induction xs with
  | nil => simp [floatsL]
  | cons x xs ih => simp [floatsL, ih]

theorem mem_floatsM {x : F} {ms : List (Bytes × Json F)} : x ∈ floatsM ms ↔ ∃ e ∈ ms, x ∈ floats e.2 := by
  induction ms with
  | nil => simp [floatsM]
  | cons e ms ih => obtain ⟨k, v⟩ := e; simp [floatsM, ih]

theorem fit_arr {fl : Floats F} {xs : List (Json F)} : Fit fl (.arr xs) ↔ ∀ x ∈ xs, Fit fl x := by
  simp only [Fit, Held, Ordered, strings, floats, heldL_iff, orderedL_iff, mem_stringsL, mem_floatsL]
  constructor
  · rintro ⟨h1, h2, h3, h4⟩ x hx
    exact ⟨h1 x hx, h2 x hx, fun s hs => h3 s ⟨x, hx, hs⟩, fun y hy => h4 y ⟨x, hx, hy⟩⟩
  · intro h
    exact ⟨fun x hx => (h x hx).1, fun x hx => (h x hx).2.1, fun s ⟨x, hx, hs⟩ => (h x hx).2.2.1 s hs,
      fun y ⟨x, hx, hy⟩ => (h x hx).2.2.2 y hy⟩

theorem fit_obj {fl : Floats F} {ms : List (Bytes × Json F)} : Fit fl (.obj ms) ↔
    SortedM ms ∧ ∀ e ∈ ms, (∀ b ∈ e.1, b < 256) ∧ Utf8 e.1 ∧ Fit fl e.2 := by
  simp only [Fit, Held, Ordered, strings, floats, heldM_iff, orderedM_iff, mem_stringsM, mem_floatsM, SortedM]
  constructor
  · rintro ⟨h1, ⟨h2, h2'⟩, h3, h4⟩
    exact ⟨h2, fun e he => ⟨(h1 e he).1, h3 _ ⟨e, he, .inl rfl⟩, (h1 e he).2, h2' e he, fun s hs => h3 s ⟨e, he, .inr hs⟩,
      fun y hy => h4 y ⟨e, he, hy⟩⟩⟩
  · rintro ⟨h2, h⟩
    refine ⟨fun e he => ⟨(h e he).1, (h e he).2.2.1⟩, ⟨h2, fun e he => (h e he).2.2.2.1⟩, ?_, ?_⟩
    · rintro s ⟨e, he, rfl | hs⟩
      · exact (h e he).2.1
      · exact (h e he).2.2.2.2.1 s hs
    · rintro y ⟨e, he, hy⟩
      exact (h e he).2.2.2.2.2 y hy

namespace Spec
mutual
/-- there is no JSON value in the type -/
def NoJson : CTy → Prop
  | .vec t => NoJson t
  | .flist t => NoJson t
  | .valarray t => NoJson t
  | .array _ t => NoJson t
  | .carray _ t => NoJson t
  | .tuple ts => NoJsonL ts
  | .dict t => NoJson t
  | .mdict t => NoJson t
  | .table k v => NoJson k ∧ NoJson v
  | .json => False
  | _ => True
/-- nor in its components -/
def NoJsonL : List CTy → Prop
  | [] => True
  | t :: ts => NoJson t ∧ NoJsonL ts
end

mutual
/-- all strings in the value, also those that are keys, are UTF-8, all floating-point numbers are finite -/
def Proper (fl : Floats F) : CVal F → Prop
  | .null => True
  | .bool _ => True
  | .str s => (∀ b ∈ s, b < 256) ∧ Utf8 s
  | .int _ => True
  | .flt x => fl.finite x = true
  | .seq vs => ProperL fl vs
  | .dict ms => ProperM fl ms
  | .table es => ProperT fl es
  | .json _ => True
/-- in a sequence -/
def ProperL (fl : Floats F) : List (CVal F) → Prop
  | [] => True
  | v :: vs => Proper fl v ∧ ProperL fl vs
/-- in a map -/
def ProperM (fl : Floats F) : List (Bytes × CVal F) → Prop
  | [] => True
  | (k, v) :: ms => ((∀ b ∈ k, b < 256) ∧ Utf8 k ∧ Proper fl v) ∧ ProperM fl ms
/-- in a map with other keys -/
def ProperT (fl : Floats F) : List (CVal F × CVal F) → Prop
  | [] => True
  | (k, v) :: es => (Proper fl k ∧ Proper fl v) ∧ ProperT fl es
end
end Spec

theorem properL_iff {fl : Floats F} {vs : List (CVal F)} : ProperL fl vs ↔ ∀ v ∈ vs, Proper fl v := by
  induction vs with
  | nil => simp [ProperL]
  | cons x xs ih => simp [ProperL, ih]

theorem properM_iff {fl : Floats F} {ms : List (Bytes × CVal F)} :
    ProperM fl ms ↔ ∀ e ∈ ms, (∀ b ∈ e.1, b < 256) ∧ Utf8 e.1 ∧ Proper fl e.2 := by
  induction ms with
  | nil => simp [ProperM]
  | cons x xs ih => obtain ⟨k, v⟩ := x; simp [ProperM, ih]

theorem properT_iff {fl : Floats F} {es : List (CVal F × CVal F)} :
    ProperT fl es ↔ ∀ e ∈ es, Proper fl e.1 ∧ Proper fl e.2 := by
  induction es with
  | nil => simp [ProperT]
  | cons x xs ih => obtain ⟨k, v⟩ := x; simp [ProperT, ih]

theorem fit_emplace {fl : Floats F} {k : Bytes} {v : Json F} {ms : List (Bytes × Json F)} (h : Fit fl (.obj ms))
    (hk : (∀ b ∈ k, b < 256) ∧ Utf8 k ∧ Fit fl v) : Fit fl (.obj (emplaceKey k v ms)) := by
  rw [fit_obj] at h ⊢
  rw [emplaceKey]
  cases lookup k ms with
  | some w => exact h
  | none =>
    refine ⟨sorted_setKey h.1, fun e he => ?_⟩
    rcases (mem_setKey h.1).mp he with rfl | ⟨he, _⟩
    · exact hk
    · exact h.2 e he

theorem fit_fold {fl : Floats F} : ∀ (es ms : List (Bytes × Json F)), Fit fl (.obj ms) →
    (∀ e ∈ es, (∀ b ∈ e.1, b < 256) ∧ Utf8 e.1 ∧ Fit fl e.2) →
    Fit fl (.obj (es.foldl (fun ms e => emplaceKey e.1 e.2 ms) ms))
  | [], _, h, _ => h
  | e :: es, ms, h, he => by
    rw [List.foldl_cons]
    exact fit_fold es _ (fit_emplace h (he e List.mem_cons_self)) fun x hx => he x (List.mem_cons_of_mem _ hx)

theorem fit_empty {fl : Floats F} : Fit fl (.obj []) := by
  rw [fit_obj]; exact ⟨List.Pairwise.nil, fun e he => by cases he⟩

theorem pairOf_some {v : Json F} {e : Bytes × Json F} (h : pairOf v = some e) : v = .arr [.str e.1, e.2] := by
  rw [pairOf.eq_def] at h
  split at h
  · cases h; rfl
  · cases h

theorem fit_null {fl : Floats F} : Fit fl (.null : Json F) := by simp [Fit, Held, Ordered, strings, floats]

theorem fit_braces {fl : Floats F} {js : List (Json F)} (h : ∀ j ∈ js, Fit fl j) : Fit fl (ofBraces js) := by
  by_cases hc : ∃ j ∈ js, pairOf j = none
  · rw [ofBraces_arr hc, fit_arr]; exact h
  · rw [ofBraces.eq_def]
    split
    · exact fit_null
    · have hp : ∀ j ∈ js, pairOf j ≠ none := fun j hj hp => hc ⟨j, hj, hp⟩
      have hall : js.all isPair = true := by
        rw [List.all_eq_true]
        intro v hv
        rw [isPair_iff]
        cases hq : pairOf v with
        | none => exact absurd hq (hp v hv)
        | some e => exact ⟨e, rfl⟩
      have : ofInit none js = .ok (.obj ((js.filterMap pairOf).foldl (fun ms e => emplaceKey e.1 e.2 ms) [])) := by
        rw [ofInit]
        simp only [hall]
        rw [if_neg (by simp), if_pos (by simp)]
        exact congrArg (fun m => Outcome.ok (Json.obj m)) (foldl_pairs js [] hp)
      rw [this]
      refine fit_fold _ _ fit_empty fun e he => ?_
      obtain ⟨j, hj, hje⟩ := List.mem_filterMap.mp he
      have := h j hj
      rw [pairOf_some hje, fit_arr] at this
      have h1 := this (.str e.1) (by simp)
      exact ⟨by simpa [Held] using h1.1, h1.2.2.1 _ (by simp [strings]), this e.2 (by simp)⟩

theorem wrap64_range (i : Int) : -(2 ^ 63) ≤ wrapTo true 64 i ∧ wrapTo true 64 i < 2 ^ 63 := by
  have := wrapTo_in (s := true) (w := 64) (i := i) (by simp)
  simpa [inType] using this

mutual
theorem fit_toJson (c : Casts F) (lt : CVal F → CVal F → Bool) (fl : Floats F) : ∀ (t : CTy) (v : CVal F), NoJson t → Has c lt t v →
    Proper fl v → Fit fl (toJson t v)
  | .null, v, _, h, hp => by cases v <;> simp [Has, toJson, Fit, Held, Ordered, strings, floats] at h ⊢
  | .bool, v, _, h, hp => by cases v <;> simp [Has, toJson, Fit, Held, Ordered, strings, floats] at h ⊢
  | .str, v, _, h, hp => by
    cases v with
    | str s => rw [Proper] at hp; simp only [toJson, Fit, Held, Ordered, strings, floats]; simpa using hp
    | _ => simp [Has] at h
  | .int s w o, v, _, h, hp => by
    cases v with
    | int i =>
      rw [Has, inType] at h
      cases s with
      | true =>
        simp only [toJson, Fit, Held, Ordered, strings, floats]
        rcases h.1 with rfl | rfl | rfl | rfl <;> simp at h ⊢ <;> omega
      | false =>
        simp only [toJson, Fit, Held, Ordered, strings, floats]
        rcases h.1 with rfl | rfl | rfl | rfl <;> simp at h ⊢ <;> omega
    | _ => simp [Has] at h
  | .float, v, _, h, hp => by
    cases v with
    | flt x => rw [Proper] at hp; simpa [toJson, Fit, Held, Ordered, strings, floats] using hp
    | _ => simp [Has] at h
  | .double, v, _, h, hp => by
    cases v with
    | flt x => rw [Proper] at hp; simpa [toJson, Fit, Held, Ordered, strings, floats] using hp
    | _ => simp [Has] at h
  | .enum s w, v, _, h, hp => by
    cases v with
    | int i => simpa [toJson, Fit, Held, Ordered, strings, floats] using wrap64_range i
    | _ => simp [Has] at h
  | .vec t, v, hn, h, hp => by
    cases v with
    | seq vs =>
      rw [NoJson] at hn
      rw [Has] at h
      rw [Proper, properL_iff] at hp
      rw [toJson, fit_arr]
      intro x hx
      obtain ⟨y, hy, rfl⟩ := List.mem_map.mp hx
      exact fit_toJson c lt fl t y hn (h y hy) (hp y hy)
    | _ => simp [Has] at h
  | .flist t, v, hn, h, hp => by
    cases v with
    | seq vs =>
      rw [NoJson] at hn
      rw [Has] at h
      rw [Proper, properL_iff] at hp
      rw [toJson, fit_arr]
      intro x hx
      obtain ⟨y, hy, rfl⟩ := List.mem_map.mp hx
      exact fit_toJson c lt fl t y hn (h y hy) (hp y hy)
    | _ => simp [Has] at h
  | .valarray t, v, hn, h, hp => by
    cases v with
    | seq vs =>
      rw [NoJson] at hn
      rw [Has] at h
      rw [Proper, properL_iff] at hp
      rw [toJson, fit_arr]
      intro x hx
      obtain ⟨y, hy, rfl⟩ := List.mem_map.mp hx
      exact fit_toJson c lt fl t y hn (h y hy) (hp y hy)
    | _ => simp [Has] at h
  | .array n t, v, hn, h, hp => by
    cases v with
    | seq vs =>
      rw [NoJson] at hn
      rw [Has] at h
      rw [Proper, properL_iff] at hp
      rw [toJson, fit_arr]
      intro x hx
      obtain ⟨y, hy, rfl⟩ := List.mem_map.mp hx
      exact fit_toJson c lt fl t y hn (h.2 y hy) (hp y hy)
    | _ => simp [Has] at h
  | .carray n t, v, hn, h, hp => by
    cases v with
    | seq vs =>
      rw [NoJson] at hn
      rw [Has] at h
      rw [Proper, properL_iff] at hp
      rw [toJson, fit_arr]
      intro x hx
      obtain ⟨y, hy, rfl⟩ := List.mem_map.mp hx
      exact fit_toJson c lt fl t y hn (h.2 y hy) (hp y hy)
    | _ => simp [Has] at h
  | .tuple ts, v, hn, h, hp => by
    cases v with
    | seq vs =>
      rw [NoJson] at hn
      rw [Has] at h
      rw [Proper] at hp
      rw [toJson]
      exact fit_braces (fit_toJsonL c lt fl ts vs hn h hp)
    | _ => simp [Has] at h
  | .dict t, v, hn, h, hp => by
    cases v with
    | dict ms =>
      rw [NoJson] at hn
      rw [Has] at h
      rw [Proper, properM_iff] at hp
      rw [toJson, ← List.foldl_map (f := fun e : Bytes × CVal F => (e.1, toJson t e.2)) (g := fun ns e => emplaceKey e.1 e.2 ns)]
      refine fit_fold _ _ fit_empty fun e he => ?_
      obtain ⟨y, hy, rfl⟩ := List.mem_map.mp he
      exact ⟨(hp y hy).1, (hp y hy).2.1, fit_toJson c lt fl t y.2 hn (h.2 y hy) (hp y hy).2.2⟩
    | _ => simp [Has] at h
  | .mdict t, v, hn, h, hp => by
    cases v with
    | dict ms =>
      rw [NoJson] at hn
      rw [Has] at h
      rw [Proper, properM_iff] at hp
      rw [toJson, ← List.foldl_map (f := fun e : Bytes × CVal F => (e.1, toJson t e.2)) (g := fun ns e => emplaceKey e.1 e.2 ns)]
      refine fit_fold _ _ fit_empty fun e he => ?_
      obtain ⟨y, hy, rfl⟩ := List.mem_map.mp he
      exact ⟨(hp y hy).1, (hp y hy).2.1, fit_toJson c lt fl t y.2 hn (h.2 y hy) (hp y hy).2.2⟩
    | _ => simp [Has] at h
  | .table k u, v, hn, h, hp => by
    cases v with
    | table es =>
      rw [NoJson] at hn
      rw [Has] at h
      rw [Proper, properT_iff] at hp
      rw [toJson, fit_arr]
      intro x hx
      obtain ⟨y, hy, rfl⟩ := List.mem_map.mp hx
      refine fit_braces fun j hj => ?_
      rcases List.mem_cons.mp hj with rfl | hj
      · exact fit_toJson c lt fl k y.1 hn.1 (h.2 y hy).1 (hp y hy).1
      · rcases List.mem_cons.mp hj with rfl | hj
        · exact fit_toJson c lt fl u y.2 hn.2 (h.2 y hy).2 (hp y hy).2
        · cases hj
    | _ => simp [Has] at h
  | .json, v, hn, _, _ => by simp [NoJson] at hn

theorem fit_toJsonL (c : Casts F) (lt : CVal F → CVal F → Bool) (fl : Floats F) : ∀ (ts : List CTy) (vs : List (CVal F)), NoJsonL ts →
    HasL c lt ts vs → ProperL fl vs → ∀ j ∈ toJsonL ts vs, Fit fl j
  | [], vs, _, _, _ => by simp [toJsonL]
  | t :: ts, [], _, h, _ => by simp [toJsonL]
  | t :: ts, v :: vs, hn, h, hp => by
    rw [NoJsonL] at hn
    rw [HasL] at h
    rw [ProperL] at hp
    intro j hj
    rw [toJsonL] at hj
    rcases List.mem_cons.mp hj with rfl | hj
    · exact fit_toJson c lt fl t v hn.1 h.1 hp.1
    · exact fit_toJsonL c lt fl ts vs hn.2 h.2 hp.2 j hj
end

theorem canonL_eq (fl : Floats F) : ∀ xs : List (Json F), canonL fl xs = xs.map (canon fl)
  | [] => rfl
  | x :: xs => by rw [canonL, canonL_eq fl xs]; rfl

theorem canonM_eq (fl : Floats F) : ∀ ms : List (Bytes × Json F), canonM fl ms = ms.map fun e => (e.1, canon fl e.2)
  | [] => rfl
  | (k, v) :: xs => by rw [canonM, canonM_eq fl xs]; rfl

theorem getEach_congr {A B : Type} {f g : A → Outcome B} : ∀ {xs : List A}, (∀ x ∈ xs, f x = g x) → getEach f xs = getEach g xs
  | [], _ => rfl
  | x :: xs, h => by rw [getEach, getEach, h x List.mem_cons_self, getEach_congr fun y hy => h y (List.mem_cons_of_mem _ hy)]

theorem canon_arr (fl : Floats F) (xs : List (Json F)) : canon fl (.arr xs) = .arr (xs.map (canon fl)) := by
  rw [canon, canonL_eq]

theorem atIndex_canon (fl : Floats F) {j : Json F} (i : Nat) (h : Fit fl j) :
    (∃ x, atIndex j i = .ok x ∧ Fit fl x ∧ atIndex (canon fl j) i = .ok (canon fl x)) ∨
    (∃ k, atIndex j i = .throws k ∧ atIndex (canon fl j) i = .throws k) := by
  cases j with
  | arr xs =>
    rw [canon_arr, atIndex, atIndex, List.getElem?_map]
    cases hx : xs[i]? with
    | none => exact .inr ⟨_, rfl, rfl⟩
    | some x => exact .inl ⟨x, rfl, fit_arr.mp h x (List.mem_of_getElem? hx), rfl⟩
  | int i => right; simp only [canon]; split <;> exact ⟨_, rfl, rfl⟩
  | float x => right; simp only [canon]; split <;> exact ⟨_, rfl, rfl⟩
  | _ => right; simp only [canon]; exact ⟨_, rfl, rfl⟩

theorem getN_canon (fl : Floats F) (f : Json F → Outcome (CVal F)) (hf : ∀ x, Fit fl x → f (canon fl x) = f x) {j : Json F} (h : Fit fl j) :
    ∀ n i, getN f (canon fl j) n i = getN f j n i
  | 0, _ => by rw [getN, getN]
  | n + 1, i => by
    rw [getN, getN, getN_canon fl f hf h n (i + 1)]
    rcases atIndex_canon fl i h with ⟨x, h1, h2, h3⟩ | ⟨k, h1, h2⟩
    · rw [h1, h3, Outcome.bind_ok, Outcome.bind_ok, hf x h2]
    · rw [h1, h2]

mutual
/-- reading does not see the difference between a value and what is read back after writing it -/
theorem get_canon (c : Casts F) (lt : CVal F → CVal F → Bool) (fl : Floats F) : ∀ (t : CTy) (j : Json F), NoJson t → Fit fl j →
    get c lt t (canon fl j) = get c lt t j
  | .null, j, _, h => by
    cases j with
    | int i => simp only [canon]; split <;> simp [get]
    | float x => have := h.2.2.2 x (by simp [floats]); simp [canon, this]
    | _ => simp [canon, get]
  | .bool, j, _, h => by
    cases j with
    | int i => simp only [canon]; split <;> simp [get]
    | float x => have := h.2.2.2 x (by simp [floats]); simp [canon, this]
    | _ => simp [canon, get]
  | .str, j, _, h => by
    cases j with
    | int i => simp only [canon]; split <;> simp [get]
    | float x => have := h.2.2.2 x (by simp [floats]); simp [canon, this]
    | _ => simp [canon, get]
  | .int s w o, j, _, h => by
    cases j with
    | int i =>
      simp only [canon]
      split
      · rename_i hi; simp [get, getInt, Int.toNat_of_nonneg hi]
      · rfl
    | float x => have := h.2.2.2 x (by simp [floats]); simp [canon, this]
    | _ => simp [canon, get, getInt]
  | .enum s w, j, _, h => by
    cases j with
    | int i =>
      simp only [canon]
      split
      · rename_i hi; simp [get, getInt, Int.toNat_of_nonneg hi]
      · rfl
    | float x => have := h.2.2.2 x (by simp [floats]); simp [canon, this]
    | _ => simp [canon, get, getInt]
  | .float, j, _, h => by
    cases j with
    | int i =>
      simp only [canon]
      split
      · rename_i hi; simp [get, getFloat, Int.toNat_of_nonneg hi]
      · rfl
    | float x => have := h.2.2.2 x (by simp [floats]); simp [canon, this]
    | _ => simp [canon, get, getFloat]
  | .double, j, _, h => by
    cases j with
    | int i =>
      simp only [canon]
      split
      · rename_i hi; simp [get, getFloat, Int.toNat_of_nonneg hi]
      · rfl
    | float x => have := h.2.2.2 x (by simp [floats]); simp [canon, this]
    | _ => simp [canon, get, getFloat]
  | .vec t, j, hn, h => by
    rw [NoJson] at hn
    cases j with
    | arr xs =>
      rw [canon_arr, get, get, getEach_map, getEach_congr fun x hx => get_canon c lt fl t x hn (fit_arr.mp h x hx)]
    | int i => simp only [canon]; split <;> simp [get]
    | float x => have := h.2.2.2 x (by simp [floats]); simp [canon, this]
    | _ => simp [canon, get]
  | .flist t, j, hn, h => by
    rw [NoJson] at hn
    cases j with
    | arr xs =>
      rw [canon_arr, get, get, ← List.map_reverse, getEach_map,
        getEach_congr fun x hx => get_canon c lt fl t x hn (fit_arr.mp h x (by simpa using hx))]
    | int i => simp only [canon]; split <;> simp [get]
    | float x => have := h.2.2.2 x (by simp [floats]); simp [canon, this]
    | _ => simp [canon, get]
  | .valarray t, j, hn, h => by
    rw [NoJson] at hn
    cases j with
    | arr xs =>
      rw [canon_arr, get, get, getEach_map, getEach_congr fun x hx => get_canon c lt fl t x hn (fit_arr.mp h x hx)]
    | int i => simp only [canon]; split <;> simp [get]
    | float x => have := h.2.2.2 x (by simp [floats]); simp [canon, this]
    | _ => simp [canon, get]
  | .array n t, j, hn, h => by
    rw [NoJson] at hn
    cases j with
    | arr xs =>
      have := getN_canon fl (get c lt t) (fun x hx => get_canon c lt fl t x hn hx) h n 0
      rw [canon_arr] at this
      rw [canon_arr, get, get, this]
    | int i => simp only [canon]; split <;> simp [get]
    | float x => have := h.2.2.2 x (by simp [floats]); simp [canon, this]
    | _ => simp [canon, get]
  | .carray n t, j, hn, h => by
    rw [NoJson] at hn
    rw [get, get, getN_canon fl (get c lt t) (fun x hx => get_canon c lt fl t x hn hx) h n 0]
  | .tuple ts, j, hn, h => by
    rw [NoJson] at hn
    rw [get, get, get_canonL c lt fl ts 0 j hn h]
  | .dict t, j, hn, h => by
    rw [NoJson] at hn
    cases j with
    | obj ms =>
      rw [canon, canonM_eq, get, get, getEach_map]
      rw [getEach_congr fun x hx => ?_]
      rw [get_canon c lt fl t x.2 hn ((fit_obj.mp h).2 x hx).2.2]
    | int i => simp only [canon]; split <;> simp [get]
    | float x => have := h.2.2.2 x (by simp [floats]); simp [canon, this]
    | _ => simp [canon, get]
  | .mdict t, j, hn, h => by
    rw [NoJson] at hn
    cases j with
    | obj ms =>
      rw [canon, canonM_eq, get, get, getEach_map]
      rw [getEach_congr fun x hx => ?_]
      rw [get_canon c lt fl t x.2 hn ((fit_obj.mp h).2 x hx).2.2]
    | int i => simp only [canon]; split <;> simp [get]
    | float x => have := h.2.2.2 x (by simp [floats]); simp [canon, this]
    | _ => simp [canon, get]
  | .table k v, j, hn, h => by
    rw [NoJson] at hn
    cases j with
    | arr xs =>
      rw [canon_arr, get, get, getEach_map, getEach_congr fun x hx => ?_]
      have hx' := fit_arr.mp h x hx
      cases x with
      | arr ys =>
        have ha := atIndex_canon fl 0 hx'
        have hb := atIndex_canon fl 1 hx'
        rw [canon_arr] at ha hb ⊢
        rw [getEntry, getEntry]
        rcases ha with ⟨a, h1, h2, h3⟩ | ⟨e, h1, h2⟩
        · rw [h1, h3, Outcome.bind_ok, Outcome.bind_ok, get_canon c lt fl k a hn.1 h2]
          rcases hb with ⟨b, h4, h5, h6⟩ | ⟨e, h4, h5⟩
          · rw [h4, h6]
            simp only [Outcome.bind_ok, get_canon c lt fl v b hn.2 h5]
          · rw [h4, h5]
        · rw [h1, h2]; rfl
      | int i => simp only [canon]; split <;> simp [getEntry]
      | float y => have := hx'.2.2.2 y (by simp [floats]); simp [canon, this]
      | _ => simp [canon, getEntry]
    | int i => simp only [canon]; split <;> simp [get]
    | float x => have := h.2.2.2 x (by simp [floats]); simp [canon, this]
    | _ => simp [canon, get]
  | .json, j, hn, _ => by simp [NoJson] at hn

theorem get_canonL (c : Casts F) (lt : CVal F → CVal F → Bool) (fl : Floats F) : ∀ (ts : List CTy) (i : Nat) (j : Json F), NoJsonL ts → Fit fl j →
    getL c lt ts i (canon fl j) = getL c lt ts i j
  | [], i, j, _, _ => by rw [getL, getL]
  | t :: ts, i, j, hn, h => by
    rw [NoJsonL] at hn
    rw [getL, getL, get_canonL c lt fl ts (i + 1) j hn.2 h]
    rcases atIndex_canon fl i h with ⟨x, h1, h2, h3⟩ | ⟨k, h1, h2⟩
    · rw [h1, h3, Outcome.bind_ok, Outcome.bind_ok, get_canon c lt fl t x hn.1 h2]
    · rw [h1, h2]
end

end Verif.Json
