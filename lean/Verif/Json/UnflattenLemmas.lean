import Verif.Json.FlattenLemmas

/-!
# Lemmas for unflattening JSON values
-/

namespace Verif.Json
open Spec

variable {F : Type}

/-! ## What is wrong stays wrong -/

theorem Wrong.ne {w v : Json F} (h : Wrong w v) (ho : Ordered v) : w ≠ v := by
  induction h with
  | here => simp
  | @member ns ms t w a hl hm _ ih =>
    rintro h
    injection h with h
    subst h
    rw [Ordered, orderedM_iff] at ho
    have := (lookup_mem_iff ho.1).mpr hm
    rw [this] at hl
    injection hl with hl
    exact ih (ho.2 _ hm) hl.symm
  | element hy hx _ ih =>
    rintro h
    injection h with h
    subst h
    rw [hx] at hy
    injection hy with hy
    rw [Ordered, orderedL_iff] at ho
    exact ih (ho _ (List.mem_of_getElem? hx)) hy.symm

theorem fillTo_get {i j : Nat} {xs ys : List (Json F)} {a : Json F} (h : fillTo i xs = .ok ys) (hx : xs[j]? = some a) :
    ys[j]? = some a := by
  rw [fillTo] at h
  have hj : j < xs.length := (List.getElem?_eq_some_iff.mp hx).1
  split at h
  · dsimp only at h
    split at h
    · cases h
    · injection h with h
      rw [← h, List.getElem?_append_left hj]
      exact hx
  · injection h with h
    rw [← h]
    exact hx

theorem Wrong.stays {w v : Json F} (h : Wrong w v) : ∀ {P : List Bytes} {x : Json F}, Leaf v P x → Ordered v → Short v →
    ∀ {f : Json F → Outcome (Json F)} {w'}, createPtrUpd f P w = .ok w' → Wrong w' v := by
  induction h with
  | here ys ms =>
    intro P x hl _ _ f w' h
    obtain ⟨k, a, Q, rfl, _, _⟩ := Leaf.obj_inv hl
    rw [createPtrUpd] at h
    cases h1 : tokenIndex k with
    | ok i =>
      rw [h1, Outcome.bind_ok] at h
      cases h2 : fillTo i ys with
      | ok zs =>
        rw [h2, Outcome.bind_ok] at h
        cases h3 : zs[i]? with
        | none => rw [h3] at h; cases h
        | some b =>
          rw [h3] at h
          simp only at h
          cases h4 : createPtrUpd f Q b with
          | ok c =>
            rw [h4, Outcome.bind_ok] at h
            injection h with h
            rw [← h]
            exact .here _ _
          | _ => rw [h4] at h; cases h
      | _ => rw [h2] at h; cases h
    | _ => rw [h1] at h; cases h
  | @member ns ms t w a hlk hm hw ih =>
    intro P x hl ho hs f w' h
    obtain ⟨k, b, Q, rfl, hb, hl'⟩ := Leaf.obj_inv hl
    rw [Ordered, orderedM_iff] at ho
    rw [Short, shortM_iff] at hs
    rw [createPtrUpd] at h
    cases h4 : createPtrUpd f Q ((lookup k ns).getD .null) with
    | ok c =>
      rw [h4, Outcome.bind_ok] at h
      injection h with h
      rw [← h]
      by_cases e : t = k
      · subst e
        have : b = a := by
          have h1 := (lookup_mem_iff ho.1).mpr hb
          rw [(lookup_mem_iff ho.1).mpr hm] at h1
          injection h1 with h1
          exact h1.symm
        subst this
        rw [hlk, Option.getD_some] at h4
        exact .member (lookup_setKey _ _ _) hm (ih hl' (ho.2 _ hm) (hs _ hm) h4)
      · exact .member (by rw [lookup_setKey_ne e]; exact hlk) hm hw
    | _ => rw [h4] at h; cases h
  | @element ys xs i w a hy hx hw ih =>
    intro P x hl ho hs f w' h
    obtain ⟨j, b, Q, rfl, hb, hl'⟩ := Leaf.arr_inv hl
    rw [Ordered, orderedL_iff] at ho
    rw [Short, shortL_iff] at hs
    have hj : j < xs.length := (List.getElem?_eq_some_iff.mp hb).1
    rw [createPtrUpd, tokenIndex_toStr (by have := hs.1; omega), Outcome.bind_ok] at h
    cases h2 : fillTo j ys with
    | ok zs =>
      rw [h2, Outcome.bind_ok] at h
      have hz := fillTo_get h2 hy
      cases h3 : zs[j]? with
      | none => rw [h3] at h; cases h
      | some c =>
        rw [h3] at h
        simp only at h
        cases h4 : createPtrUpd f Q c with
        | ok u =>
          rw [h4, Outcome.bind_ok] at h
          injection h with h
          rw [← h]
          by_cases e : j = i
          · subst e
            rw [hx] at hb
            injection hb with hb
            subst hb
            rw [h3] at hz
            injection hz with hz
            subst hz
            have hlt : j < zs.length := (List.getElem?_eq_some_iff.mp h3).1
            exact .element (i := j) (by rw [List.getElem?_set_self hlt]) hx
              (ih hl' (ho _ (List.mem_of_getElem? hx)) (hs.2 _ (List.mem_of_getElem? hx)) h4)
          · exact .element (i := i) (by rw [List.getElem?_set_ne e]; exact hz) hx hw
        | _ => rw [h4] at h; cases h
    | _ => rw [h2] at h; cases h

/-! ## When a null is made an array of -/

theorem deep_iff {a x : Json F} {Q : List Bytes} (hf : Full a) (h : Leaf a Q x) : Deep a ↔ Q ≠ [] := by
  obtain ⟨h1, h2⟩ := h
  constructor
  · rintro hd rfl
    cases h1
    rcases hd with ⟨y, ys, rfl⟩ | ⟨m, ms, rfl⟩ <;> cases h2
  · intro hq
    cases h1 with
    | here => exact absurd rfl hq
    | @member t ts ms w x hm hl =>
      cases ms with
      | nil => cases hm
      | cons m ms => exact .inr ⟨m, ms, rfl⟩
    | @element t ts xs i w x hi hx hl =>
      cases xs with
      | nil => cases hx
      | cons y ys => exact .inl ⟨y, ys, rfl⟩

theorem not_bad {d : List Bytes → Bool} {v : Json F} {P : List Bytes} (hb : Bad d v P) :
    ∀ {x}, Leaf v P x → Ordered v → Full v → (∀ Q y, Leaf v Q y → (d Q = true ↔ ptrToString Q < ptrToString P)) → ¬ Named v := by
  induction hb with
  | @zero d ms a ts hm hc =>
    intro x hl ho hf h1 hn
    rw [Ordered, orderedM_iff] at ho
    rw [Full] at hf
    have hf' := fullM_iff.mp hf.2
    rw [Named] at hn
    obtain ⟨t, b, Q, e, hb, hl⟩ := Leaf.obj_inv hl
    injection e with e1 e2
    subst e1 e2
    have : b = a := by
      have h1 := (lookup_mem_iff ho.1).mpr hb
      rw [(lookup_mem_iff ho.1).mpr hm] at h1
      injection h1 with h1
      exact h1.symm
    subst this
    obtain ⟨k, c, hc', hk⟩ := hn.1 b hm
    obtain ⟨Q, y, hq⟩ := Full.leaf (hf' _ hc')
    have h3 := (restrM_nil d _ hf.2).mp hc k c hc' Q y hq
    rw [(h1 _ y (Leaf.member hc' hq)).mpr (text_low_lt hk Q (deep_iff (hf' _ hm) hl).mp)] at h3
    cases h3
  | @member d ms t a ts hm _ ih =>
    intro x hl ho hf h1 hn
    rw [Ordered, orderedM_iff] at ho
    rw [Full, fullM_iff] at hf
    rw [Named, namedM_iff] at hn
    obtain ⟨t, b, Q, e, hb, hl⟩ := Leaf.obj_inv hl
    injection e with e1 e2
    subst e1 e2
    have : b = a := by
      have h1 := (lookup_mem_iff ho.1).mpr hb
      rw [(lookup_mem_iff ho.1).mpr hm] at h1
      injection h1 with h1
      exact h1.symm
    subst this
    exact ih hl (ho.2 _ hm) (hf.2 _ hm) (fun Q y hq => by rw [h1 _ y (Leaf.member hm hq), text_lt_cons]) (hn.2 _ hm)
  | @element d xs i a ts hx _ ih =>
    intro x hl ho hf h1 hn
    rw [Ordered, orderedL_iff] at ho
    rw [Full, fullL_iff] at hf
    rw [Named, namedL_iff] at hn
    obtain ⟨j, b, Q, e, hb, hl⟩ := Leaf.arr_inv hl
    injection e with e1 e2
    have e3 := toStr_inj e1
    subst e3 e2
    rw [hx] at hb
    injection hb with hb
    subst hb
    have hm := List.mem_of_getElem? hx
    exact ih hl (ho _ hm) (hf.2 _ hm) (fun Q y hq => by rw [h1 _ y (Leaf.element hx hq), text_lt_cons]) (hn _ hm)

/-! ## The members made by flattening -/

namespace Spec

/-- what is found where a pointer leads, an empty object or array as null -/
def Shows (v : Json F) (P : List Bytes) (y : Json F) : Prop :=
  ∃ x, Leads StrictIndex P v x ∧ (isPrimitive x = true ∧ y = x ∨ (x = .arr [] ∨ x = .obj []) ∧ y = .null)

end Spec

theorem shows_nil {v : Json F} (h : isPrimitive v = true) {P : List Bytes} {y : Json F} : Shows v P y ↔ P = [] ∧ y = v := by
  constructor
  · rintro ⟨x, hl, hx⟩
    cases hl with
    | here =>
      rcases hx with ⟨_, rfl⟩ | ⟨rfl | rfl, _⟩
      · exact ⟨rfl, rfl⟩
      · cases h
      · cases h
    | member => cases h
    | element => cases h
  · rintro ⟨rfl, rfl⟩
    exact ⟨_, .here _, .inl ⟨h, rfl⟩⟩

theorem shows_arr {xs : List (Json F)} (h : xs ≠ []) {P : List Bytes} {y : Json F} :
    Shows (.arr xs) P y ↔ ∃ i a Q, P = toStr i :: Q ∧ xs[i]? = some a ∧ Shows a Q y := by
  constructor
  · rintro ⟨x, hl, hx⟩
    cases hl with
    | here =>
      rcases hx with ⟨h', _⟩ | ⟨h' | h', _⟩
      · cases h'
      · injection h' with h'; exact absurd h' h
      · cases h'
    | element hi hx' hl => exact ⟨_, _, _, by rw [StrictIndex] at hi; rw [hi, toStr_eq], hx', x, hl, hx⟩
  · rintro ⟨i, a, Q, rfl, ha, x, hl, hx⟩
    exact ⟨x, .element (i := i) (by rw [StrictIndex, toStr_eq]) ha hl, hx⟩

theorem shows_obj {ms : List (Bytes × Json F)} (h : ms ≠ []) {P : List Bytes} {y : Json F} :
    Shows (.obj ms) P y ↔ ∃ k a Q, P = k :: Q ∧ (k, a) ∈ ms ∧ Shows a Q y := by
  constructor
  · rintro ⟨x, hl, hx⟩
    cases hl with
    | here =>
      rcases hx with ⟨h', _⟩ | ⟨h' | h', _⟩
      · cases h'
      · cases h'
      · injection h' with h'; exact absurd h' h
    | member hm hl => exact ⟨_, _, _, rfl, hm, x, hl, hx⟩
  · rintro ⟨k, a, Q, rfl, ha, x, hl, hx⟩
    exact ⟨x, .member ha hl, hx⟩

theorem shows_empty {v : Json F} (h : v = .arr [] ∨ v = .obj []) {P : List Bytes} {y : Json F} :
    Shows v P y ↔ P = [] ∧ y = .null := by
  constructor
  · rintro ⟨x, hl, hx⟩
    cases hl with
    | here =>
      rcases hx with ⟨h', _⟩ | ⟨_, h'⟩
      · rcases h with rfl | rfl <;> cases h'
      · exact ⟨rfl, h'⟩
    | member hm => rcases h with h | h <;> cases h; cases hm
    | element _ hx => rcases h with h | h <;> cases h; cases hx
  · rintro ⟨rfl, rfl⟩
    exact ⟨_, .here _, .inr ⟨h, rfl⟩⟩

theorem mem_flat_prim {k p : Bytes} {y v : Json F} {l : List (Bytes × Json F)} (h : isPrimitive v = true) (hl : l = [(p, v)]) :
    (k, y) ∈ l ↔ ∃ P, Shows v P y ∧ k = p ++ ptrToString P := by
  subst hl
  simp only [shows_nil h, List.mem_singleton, Prod.mk.injEq]
  constructor
  · rintro ⟨rfl, rfl⟩; exact ⟨[], ⟨rfl, rfl⟩, by simp [ptrToString_nil]⟩
  · rintro ⟨P, ⟨rfl, rfl⟩, h'⟩; exact ⟨by simpa [ptrToString_nil] using h', rfl⟩

mutual
theorem mem_flattenRec (k : Bytes) (y : Json F) : ∀ (v : Json F) (p : Bytes),
    (k, y) ∈ flattenRec p v ↔ ∃ P, Shows v P y ∧ k = p ++ ptrToString P
  | .arr [], p => by
    rw [flattenRec]
    simp only [shows_empty (.inl rfl), List.mem_singleton, Prod.mk.injEq]
    constructor
    · rintro ⟨rfl, rfl⟩; exact ⟨[], ⟨rfl, rfl⟩, by simp [ptrToString_nil]⟩
    · rintro ⟨P, ⟨rfl, rfl⟩, h⟩; exact ⟨by simpa [ptrToString_nil] using h, rfl⟩
  | .obj [], p => by
    rw [flattenRec]
    simp only [shows_empty (.inr rfl), List.mem_singleton, Prod.mk.injEq]
    constructor
    · rintro ⟨rfl, rfl⟩; exact ⟨[], ⟨rfl, rfl⟩, by simp [ptrToString_nil]⟩
    · rintro ⟨P, ⟨rfl, rfl⟩, h⟩; exact ⟨by simpa [ptrToString_nil] using h, rfl⟩
  | .arr (x :: xs), p => by
    rw [flattenRec, mem_flattenArr k y (x :: xs) p 0]
    · simp only [shows_arr (List.cons_ne_nil x xs), Nat.zero_add]
      constructor
      · rintro ⟨i, a, Q, ha, hs, h⟩; exact ⟨_, ⟨i, a, Q, rfl, ha, hs⟩, h⟩
      · rintro ⟨P, ⟨i, a, Q, rfl, ha, hs⟩, h⟩; exact ⟨i, a, Q, ha, hs, h⟩
    · simp
  | .obj (m :: ms), p => by
    rw [flattenRec, mem_flattenObj k y (m :: ms) p]
    · simp only [shows_obj (List.cons_ne_nil m ms)]
      constructor
      · rintro ⟨i, a, Q, ha, hs, h⟩; exact ⟨_, ⟨i, a, Q, rfl, ha, hs⟩, h⟩
      · rintro ⟨P, ⟨i, a, Q, rfl, ha, hs⟩, h⟩; exact ⟨i, a, Q, ha, hs, h⟩
    · simp
  | .null, p => mem_flat_prim (v := .null) rfl rfl
  | .bool b, p => mem_flat_prim (v := .bool b) rfl (by rw [flattenRec] <;> simp)
  | .int b, p => mem_flat_prim (v := .int b) rfl (by rw [flattenRec] <;> simp)
  | .uint b, p => mem_flat_prim (v := .uint b) rfl (by rw [flattenRec] <;> simp)
  | .float b, p => mem_flat_prim (v := .float b) rfl (by rw [flattenRec] <;> simp)
  | .str b, p => mem_flat_prim (v := .str b) rfl (by rw [flattenRec] <;> simp)
theorem mem_flattenArr (k : Bytes) (y : Json F) : ∀ (xs : List (Json F)) (p : Bytes) (i : Nat),
    (k, y) ∈ flattenArr p i xs ↔ ∃ j a Q, xs[j]? = some a ∧ Shows a Q y ∧ k = p ++ ptrToString (toStr (i + j) :: Q)
  | [], p, i => by simp [flattenArr]
  | x :: xs, p, i => by
    rw [flattenArr, List.mem_append, mem_flattenRec k y x, mem_flattenArr k y xs p (i + 1)]
    constructor
    · rintro (⟨P, hs, h⟩ | ⟨j, a, Q, ha, hs, h⟩)
      · refine ⟨0, x, P, rfl, hs, ?_⟩
        rw [h, ptrToString_cons, Nat.add_zero, esc_toStr]
        simp
      · exact ⟨j + 1, a, Q, by simpa using ha, hs, by rw [h, show i + 1 + j = i + (j + 1) by omega]⟩
    · rintro ⟨j, a, Q, ha, hs, h⟩
      cases j with
      | zero =>
        simp at ha
        subst ha
        refine .inl ⟨Q, hs, ?_⟩
        rw [h, ptrToString_cons, Nat.add_zero, esc_toStr]
        simp
      | succ j => exact .inr ⟨j, a, Q, by simpa using ha, hs, by rw [h, show i + 1 + j = i + (j + 1) by omega]⟩
theorem mem_flattenObj (k : Bytes) (y : Json F) : ∀ (ms : List (Bytes × Json F)) (p : Bytes),
    (k, y) ∈ flattenObj p ms ↔ ∃ t a Q, (t, a) ∈ ms ∧ Shows a Q y ∧ k = p ++ ptrToString (t :: Q)
  | [], p => by simp [flattenObj]
  | (t, x) :: ms, p => by
    rw [flattenObj, List.mem_append, mem_flattenRec k y x, mem_flattenObj k y ms p]
    have e : ∀ P, p ++ [0x2f] ++ escape t ++ ptrToString P = p ++ ptrToString (t :: P) := by
      intro P
      rw [ptrToString_cons, escape_eq]; simp
    constructor
    · rintro (⟨P, hs, h⟩ | ⟨j, a, Q, ha, hs, h⟩)
      · exact ⟨t, x, P, List.mem_cons_self, hs, by rw [h, e]⟩
      · exact ⟨j, a, Q, List.mem_cons_of_mem _ ha, hs, h⟩
    · rintro ⟨j, a, Q, ha, hs, h⟩
      rcases List.mem_cons.mp ha with ha | ha
      · cases ha
        exact .inl ⟨Q, hs, by rw [h, e]⟩
      · exact .inr ⟨j, a, Q, ha, hs, h⟩
end

theorem text_inj {P Q : List Bytes} (h : ptrToString P = ptrToString Q) : P = Q := by
  have := split_ptrToString P
  rw [h, split_ptrToString] at this
  injection this with this
  exact this.symm

theorem leads_unique {v x : Json F} {P : List Bytes} (h : Leads StrictIndex P v x) : ∀ {y}, Leads StrictIndex P v y → Ordered v → y = x := by
  induction h with
  | here v => intro y h _; cases h; rfl
  | @member t ts ms w x hm hl ih =>
    intro y h ho
    rw [Ordered, orderedM_iff] at ho
    cases h with
    | @member _ _ _ w' _ hm' hl' =>
      have h1 := (lookup_mem_iff ho.1).mpr hm'
      rw [(lookup_mem_iff ho.1).mpr hm] at h1
      injection h1 with h1
      subst h1
      exact ih hl' (ho.2 _ hm)
  | @element t ts xs i w x hi hx hl ih =>
    intro y h ho
    rw [Ordered, orderedL_iff] at ho
    cases h with
    | @element _ _ _ j w' _ hj hx' hl' =>
      rw [StrictIndex] at hi hj
      have : i = j := toStr_inj (by rw [toStr_eq, toStr_eq, ← hi, ← hj])
      subst this
      rw [hx] at hx'
      injection hx' with h1
      subst h1
      exact ih hl' (ho _ (List.mem_of_getElem? hx))

theorem shows_unique {v y z : Json F} {P : List Bytes} (h : Shows v P y) (h' : Shows v P z) (ho : Ordered v) : z = y := by
  obtain ⟨a, ha, ha'⟩ := h
  obtain ⟨b, hb, hb'⟩ := h'
  have := leads_unique ha hb ho
  subst this
  rcases ha' with ⟨h1, rfl⟩ | ⟨h1, rfl⟩ <;> rcases hb' with ⟨h2, rfl⟩ | ⟨h2, rfl⟩
  · rfl
  · rcases h2 with rfl | rfl <;> cases h1
  · rcases h1 with rfl | rfl <;> cases h2
  · rfl

theorem foldl_setKey : ∀ (l acc : List (Bytes × Json F)), SortedM acc →
    (∀ k a b, (k, a) ∈ l → (k, b) ∈ l → a = b) → (∀ k a b, (k, a) ∈ l → (k, b) ∈ acc → a = b) →
    SortedM (l.foldl (fun ms e => setKey e.1 e.2 ms) acc) ∧
    ∀ x, x ∈ l.foldl (fun ms e => setKey e.1 e.2 ms) acc ↔ x ∈ acc ∨ x ∈ l
  | [], acc, hs, _, _ => by simp [hs]
  | (k, a) :: l, acc, hs, h1, h2 => by
    rw [List.foldl_cons]
    obtain ⟨g1, g2⟩ := foldl_setKey l (setKey k a acc) (sorted_setKey hs)
      (fun j b c hb hc => h1 j b c (List.mem_cons_of_mem _ hb) (List.mem_cons_of_mem _ hc))
      (fun j b c hb hc => by
        rcases (mem_setKey hs).mp hc with hc | hc
        · cases hc
          exact h1 _ _ _ (List.mem_cons_of_mem _ hb) List.mem_cons_self
        · exact h2 j b c (List.mem_cons_of_mem _ hb) hc.1)
    refine ⟨g1, fun x => ?_⟩
    rw [g2, mem_setKey hs, List.mem_cons]
    constructor
    · rintro ((h | h) | h)
      · exact .inr (.inl h)
      · exact .inl h.1
      · exact .inr (.inr h)
    · rintro (h | h | h)
      · by_cases e : k = x.1
        · left; left
          obtain ⟨j, b⟩ := x
          simp only at e
          subst e
          rw [h2 k a b List.mem_cons_self h]
        · exact .inl (.inr ⟨h, fun e' => e e'.symm⟩)
      · exact .inl (.inl h)
      · exact .inr h

/-- the members of a flattened value -/
def flatM (v : Json F) : List (Bytes × Json F) := (flattenRec [] v).foldl (fun ms e => setKey e.1 e.2 ms) []

theorem flatM_all {v : Json F} (ho : Ordered v) : SortedM (flatM v) ∧
    ∀ k y, (k, y) ∈ flatM v ↔ ∃ P, Shows v P y ∧ k = ptrToString P := by
  obtain ⟨h1, h2⟩ := foldl_setKey (flattenRec [] v) [] (by simp [SortedM])
    (fun k a b ha hb => by
      rw [mem_flattenRec] at ha hb
      obtain ⟨P, hP, e⟩ := ha
      obtain ⟨Q, hQ, e'⟩ := hb
      rw [e, List.nil_append, List.nil_append] at e'
      have := text_inj e'
      subst this
      exact (shows_unique hP hQ ho).symm) (by simp)
  refine ⟨h1, fun k y => ?_⟩
  rw [flatM, h2, mem_flattenRec]
  simp

theorem shows_full {v y : Json F} {P : List Bytes} (hf : Full v) : Shows v P y ↔ Leaf v P y := by
  constructor
  · rintro ⟨x, hl, ⟨hp, rfl⟩ | ⟨he, _⟩⟩
    · exact ⟨hl, hp⟩
    · exfalso
      induction hl with
      | here =>
        rcases he with rfl | rfl <;> · rw [Full] at hf; exact hf.1 rfl
      | member hm _ ih => rw [Full, fullM_iff] at hf; exact ih (hf.2 _ hm) he
      | element _ hx _ ih => rw [Full, fullL_iff] at hf; exact ih (hf.2 _ (List.mem_of_getElem? hx)) he
  · rintro ⟨hl, hp⟩
    exact ⟨y, hl, .inl ⟨hp, rfl⟩⟩

/-! ## The loop of unflatten -/

/-- the leaves before a pointer, in the order in which they are taken -/
def before (P : List Bytes) (Q : List Bytes) : Bool := decide (ptrToString Q < ptrToString P)

/-- what has been made of a value after some of its leaves -/
def made (v : Json F) (done : List (Bytes × Json F)) : Json F :=
  (restr (fun Q => decide (ptrToString Q ∈ done.map Prod.fst)) v).getD .null

theorem flat_order {v : Json F} (ho : Ordered v) (hf : Full v) {done todo : List (Bytes × Json F)} {P : List Bytes} {x : Json F}
    (h : flatM v = done ++ (ptrToString P, x) :: todo) :
    ∀ Q y, Leaf v Q y → (decide (ptrToString Q ∈ done.map Prod.fst) = true ↔ before P Q = true) := by
  intro Q y hq
  obtain ⟨hs, hm⟩ := flatM_all ho
  have hq' := (hm (ptrToString Q) y).mpr ⟨Q, (shows_full hf).mpr hq, rfl⟩
  rw [h] at hs hq'
  obtain ⟨h1, h2, h3⟩ := List.pairwise_append.mp hs
  rw [before, decide_eq_true_iff, decide_eq_true_iff]
  constructor
  · intro hd
    obtain ⟨z, hz, e⟩ := List.mem_map.mp hd
    rw [← e]
    exact h3 z hz _ List.mem_cons_self
  · intro hlt
    rcases List.mem_append.mp hq' with hd | hd
    · exact List.mem_map.mpr ⟨_, hd, rfl⟩
    · rcases List.mem_cons.mp hd with hd | hd
      · injection hd with hd _
        rw [hd] at hlt
        exact absurd hlt (key_irrefl _)
      · have := (List.pairwise_cons.mp h2).1 _ hd
        exact absurd (List.lt_trans hlt this) (key_irrefl _)

theorem wrong_loop {v : Json F} (ho : Ordered v) (hs : Short v) : ∀ (todo : List (Bytes × Json F)) {w r : Json F}, Wrong w v →
    (∀ k x, (k, x) ∈ todo → ∃ P, Leaf v P x ∧ k = ptrToString P) → unflattenLoop w todo = .ok r → Wrong r v
  | [], w, r, hw, _, h => by
    rw [unflattenLoop] at h
    injection h with h
    exact h ▸ hw
  | (k, x) :: todo, w, r, hw, hl, h => by
    obtain ⟨P, hP, rfl⟩ := hl k x List.mem_cons_self
    rw [unflattenLoop, if_pos hP.2, split_ptrToString, Outcome.bind_ok] at h
    cases h1 : createPtrUpd (fun _ => .ok x) P w with
    | ok w' =>
      rw [h1, Outcome.bind_ok] at h
      exact wrong_loop ho hs todo (hw.stays hP ho hs h1) (fun k x hx => hl k x (List.mem_cons_of_mem _ hx)) h
    | _ => rw [h1] at h; cases h

theorem loop_run {v : Json F} (ho : Ordered v) (hf : Full v) (hs : Short v) : ∀ (todo done : List (Bytes × Json F)),
    flatM v = done ++ todo →
    ((∀ P x, (ptrToString P, x) ∈ todo → ¬ Bad (before P) v P) → unflattenLoop (made v done) todo = .ok v) ∧
    ((∃ P x, (ptrToString P, x) ∈ todo ∧ Bad (before P) v P) → ∀ r, unflattenLoop (made v done) todo = .ok r → Wrong r v)
  | [], done, h => by
    refine ⟨fun _ => ?_, fun ⟨P, x, hx, _⟩ => (nomatch hx)⟩
    obtain ⟨_, hm⟩ := flatM_all ho
    rw [unflattenLoop, made, restr_all v hf, Option.getD_some]
    intro P x hl
    rw [List.append_nil] at h
    rw [decide_eq_true_iff]
    exact List.mem_map.mpr ⟨(ptrToString P, x), by rw [← h]; exact (hm _ _).mpr ⟨P, (shows_full hf).mpr hl, rfl⟩, rfl⟩
  | (k, x) :: todo, done, h => by
    obtain ⟨_, hm⟩ := flatM_all ho
    obtain ⟨P, hP, rfl⟩ := (hm k x).mp (by rw [h]; exact List.mem_append_right _ List.mem_cons_self)
    rw [shows_full hf] at hP
    have hd := flat_order ho hf h
    have hmade : made v done = (restr (before P) v).getD .null := by
      rw [made, restr_congr (d' := before P) v fun Q y hq => Bool.eq_iff_iff.mpr (hd Q y hq)]
    have hbef : ∀ Q y, Leaf v Q y → (before P Q = true ↔ ptrToString Q < ptrToString P) := fun Q y _ => by
      rw [before, decide_eq_true_iff]
    have hrest : ∀ k x, (k, x) ∈ todo → ∃ P, Leaf v P x ∧ k = ptrToString P := fun k x hx => by
      obtain ⟨P, hP, e⟩ := (hm k x).mp (by rw [h]; exact List.mem_append_right _ (List.mem_cons_of_mem _ hx))
      exact ⟨P, (shows_full hf).mp hP, e⟩
    rw [unflattenLoop, if_pos hP.2, split_ptrToString, Outcome.bind_ok, hmade]
    by_cases hb : Bad (before P) v P
    · refine ⟨fun h1 => absurd hb (h1 P x List.mem_cons_self), fun _ r hr => ?_⟩
      cases h1 : createPtrUpd (fun _ => .ok x) P ((restr (before P) v).getD .null) with
      | ok w =>
        rw [h1, Outcome.bind_ok] at hr
        exact wrong_loop ho hs todo (create_bad hb _ ho hf hs hbef h1) hrest hr
      | _ => rw [h1] at hr; cases hr
    · obtain ⟨w, hw1, hw2⟩ := create_step hP.1 hP.2 (d := before P)
        (d' := fun Q => decide (ptrToString Q ∈ (done ++ [(ptrToString P, x)]).map Prod.fst)) ho hf hs hbef
        (fun Q y hq => by
          rw [← hd Q y hq, decide_eq_true_iff, decide_eq_true_iff, List.map_append, List.mem_append]
          refine or_congr_right ?_
          rw [List.map_cons, List.map_nil, List.mem_singleton]
          exact ⟨text_inj, fun e => e ▸ rfl⟩) hb
      have ih := loop_run ho hf hs todo (done ++ [(ptrToString P, x)]) (by rw [h]; simp)
      rw [made, hw2, Option.getD_some] at ih
      rw [hw1, Outcome.bind_ok]
      refine ⟨fun h1 => ih.1 fun Q y hq => h1 Q y (List.mem_cons_of_mem _ hq), fun ⟨Q, y, hq, hbq⟩ => ih.2 ⟨Q, y, ?_, hbq⟩⟩
      rcases List.mem_cons.mp hq with hq | hq
      · injection hq with hq _
        exact absurd (text_inj hq ▸ hbq) hb
      · exact hq

/-! ## There is a wrong one unless the names are good -/

theorem least_leaf {v : Json F} (ho : Ordered v) (hf : Full v) : ∃ P x, Leaf v P x ∧ ∀ Q y, Leaf v Q y → ¬ ptrToString Q < ptrToString P := by
  obtain ⟨hs, hm⟩ := flatM_all ho
  obtain ⟨R, z, hR⟩ := Full.leaf hf
  cases hl : flatM v with
  | nil =>
    have := (hm _ _).mpr ⟨R, (shows_full hf).mpr hR, rfl⟩
    rw [hl] at this
    cases this
  | cons m l =>
    obtain ⟨k, x⟩ := m
    obtain ⟨P, hP, rfl⟩ := (hm k x).mp (by rw [hl]; exact List.mem_cons_self)
    refine ⟨P, x, (shows_full hf).mp hP, fun Q y hq hlt => ?_⟩
    have := (hm _ _).mpr ⟨Q, (shows_full hf).mpr hq, rfl⟩
    rw [hl] at this hs
    rcases List.mem_cons.mp this with h | h
    · injection h with h _
      rw [h] at hlt
      exact key_irrefl _ hlt
    · exact key_irrefl _ (List.lt_trans hlt ((List.pairwise_cons.mp hs).1 _ h))

mutual
theorem has_bad : ∀ (v : Json F), Ordered v → Full v → ¬ Named v →
    ∃ P x, Leaf v P x ∧ ∀ d : List Bytes → Bool, (∀ Q y, Leaf v Q y → (d Q = true ↔ ptrToString Q < ptrToString P)) → Bad d v P
  | .arr xs, ho, hf, hn => by
    rw [Ordered] at ho
    rw [Full] at hf
    rw [Named] at hn
    obtain ⟨i, a, hx, P, x, hl, hb⟩ := has_badL xs ho hf.2 hn
    exact ⟨toStr i :: P, x, Leaf.element hx hl, fun d hd => .element hx (hb _ fun Q y hq => by
      rw [hd _ y (Leaf.element hx hq), text_lt_cons])⟩
  | .obj ms, ho, hf, hn => by
    rw [Ordered] at ho
    rw [Full] at hf
    rw [Named] at hn
    by_cases hm : NamedM ms
    · have : ∃ x, ([0x30], x) ∈ ms ∧ ∀ k y, (k, y) ∈ ms → ¬ Before k x := by
        by_contra hc
        refine hn ⟨fun x hx => ?_, hm⟩
        by_contra hc'
        exact hc ⟨x, hx, fun k y hk hb => hc' ⟨k, y, hk, hb⟩⟩
      obtain ⟨a, ha, hno⟩ := this
      have hfa := fullM_iff.mp hf.2 _ ha
      obtain ⟨P, x, hl, hleast⟩ := least_leaf (orderedM_iff.mp ho.2 _ ha) hfa
      refine ⟨[0x30] :: P, x, Leaf.member ha hl, fun d hd => .zero ha ((restrM_nil d ms hf.2).mpr fun k b hb Q y hq => ?_)⟩
      rw [← Bool.not_eq_true, hd _ y (Leaf.member hb hq)]
      by_cases hk : k = [0x30]
      · subst hk
        have : b = a := by
          have h1 := (lookup_mem_iff ho.1).mpr hb
          rw [(lookup_mem_iff ho.1).mpr ha] at h1
          injection h1 with h1
          exact h1.symm
        subst this
        rw [text_lt_cons]
        exact hleast Q y hq
      · intro hlt
        exact key_irrefl _ (List.lt_trans hlt (text_low_ge (hno k b hb) hk Q (deep_iff hfa hl).mpr))
    · obtain ⟨k, a, hx, P, x, hl, hb⟩ := has_badM ms ho.2 hf.2 hm
      exact ⟨k :: P, x, Leaf.member hx hl, fun d hd => .member hx (hb _ fun Q y hq => by
        rw [hd _ y (Leaf.member hx hq), text_lt_cons])⟩
  | .null, _, _, hn | .bool _, _, _, hn | .int _, _, _, hn | .uint _, _, _, hn | .float _, _, _, hn | .str _, _, _, hn => by
    exact absurd (by rw [Named]; trivial) hn
theorem has_badL : ∀ (xs : List (Json F)), OrderedL xs → FullL xs → ¬ NamedL xs → ∃ (i : Nat) (a : Json F), xs[i]? = some a ∧
    ∃ P x, Leaf a P x ∧ ∀ d : List Bytes → Bool, (∀ Q y, Leaf a Q y → (d Q = true ↔ ptrToString Q < ptrToString P)) → Bad d a P
  | [], _, _, hn => absurd (by rw [NamedL]; trivial) hn
  | v :: vs, ho, hf, hn => by
    rw [OrderedL] at ho
    rw [FullL] at hf
    rw [NamedL] at hn
    by_cases h : Named v
    · obtain ⟨i, a, hx, h'⟩ := has_badL vs ho.2 hf.2 fun h' => hn ⟨h, h'⟩
      exact ⟨i + 1, a, by simpa using hx, h'⟩
    · exact ⟨0, v, rfl, has_bad v ho.1 hf.1 h⟩
theorem has_badM : ∀ (ms : List (Bytes × Json F)), OrderedM ms → FullM ms → ¬ NamedM ms → ∃ (k : Bytes) (a : Json F), (k, a) ∈ ms ∧
    ∃ P x, Leaf a P x ∧ ∀ d : List Bytes → Bool, (∀ Q y, Leaf a Q y → (d Q = true ↔ ptrToString Q < ptrToString P)) → Bad d a P
  | [], _, _, hn => absurd (by rw [NamedM]; trivial) hn
  | (k, v) :: ms, ho, hf, hn => by
    rw [OrderedM] at ho
    rw [FullM] at hf
    rw [NamedM] at hn
    by_cases h : Named v
    · obtain ⟨i, a, hx, h'⟩ := has_badM ms ho.2 hf.2 fun h' => hn ⟨h, h'⟩
      exact ⟨i, a, List.mem_cons_of_mem _ hx, h'⟩
    · exact ⟨k, v, List.mem_cons_self, has_bad v ho.1 hf.1 h⟩
end

theorem unflatten_flatten {v : Json F} (ho : Ordered v) (hf : Full v) (hs : Short v) :
    (Named v → unflatten (flatten v) = .ok v) ∧ (¬ Named v → ∀ r, unflatten (flatten v) = .ok r → Wrong r v) := by
  have hl := loop_run ho hf hs (flatM v) [] rfl
  have hm := (flatM_all ho).2
  have hnone : made v [] = .null := by
    rw [made, (restr_none _ v hf).mpr fun P x _ => by simp]; rfl
  rw [hnone] at hl
  have hbef : ∀ P Q y, Leaf v Q y → (before P Q = true ↔ ptrToString Q < ptrToString P) := fun P Q y _ => by
    rw [before, decide_eq_true_iff]
  have e : unflatten (flatten v) = unflattenLoop .null (flatM v) := rfl
  rw [e]
  refine ⟨fun hn => hl.1 fun P x hx hb => ?_, fun hn => hl.2 ?_⟩
  · obtain ⟨Q, hQ, hq⟩ := (hm _ _).mp hx
    have := text_inj hq
    subst this
    exact not_bad hb ((shows_full hf).mp hQ) ho hf (hbef P) hn
  · obtain ⟨P, x, hP, hb⟩ := has_bad v ho hf hn
    exact ⟨P, x, (hm _ _).mpr ⟨P, (shows_full hf).mpr hP, rfl⟩, hb _ (hbef P)⟩

/-! ## Empty objects and arrays -/

namespace Spec

mutual
/-- every empty object and array replaced by null -/
def blank : Json F → Json F
  | .arr xs => if xs.isEmpty then .null else .arr (blankL xs)
  | .obj ms => if ms.isEmpty then .null else .obj (blankM ms)
  | .null => .null
  | .bool b => .bool b
  | .int i => .int i
  | .uint n => .uint n
  | .float x => .float x
  | .str s => .str s
def blankL : List (Json F) → List (Json F)
  | [] => []
  | v :: vs => blank v :: blankL vs
def blankM : List (Bytes × Json F) → List (Bytes × Json F)
  | [] => []
  | (k, v) :: ms => (k, blank v) :: blankM ms
end

end Spec

theorem blankL_eq : ∀ xs : List (Json F), blankL xs = xs.map blank
  | [] => rfl
  | x :: xs => by rw [blankL, blankL_eq xs]; rfl

theorem blankM_eq : ∀ ms : List (Bytes × Json F), blankM ms = ms.map fun m => (m.1, blank m.2)
  | [] => rfl
  | (k, x) :: xs => by rw [blankM, blankM_eq xs]; rfl

mutual
theorem flattenRec_blank : ∀ (v : Json F) (p : Bytes), flattenRec p (blank v) = flattenRec p v
  | .arr [], p => by simp [blank, flattenRec]
  | .arr (x :: xs), p => by
    have := flattenArr_blank (x :: xs) p 0
    rw [blankL] at this
    simp only [blank, blankL, List.isEmpty_cons, Bool.false_eq_true, if_false]
    rw [flattenRec, flattenRec, this] <;> simp
  | .obj [], p => by simp [blank, flattenRec]
  | .obj ((k, x) :: xs), p => by
    have := flattenObj_blank ((k, x) :: xs) p
    rw [blankM] at this
    simp only [blank, blankM, List.isEmpty_cons, Bool.false_eq_true, if_false]
    rw [flattenRec, flattenRec, this] <;> simp
  | .null, p | .bool _, p | .int _, p | .uint _, p | .float _, p | .str _, p => by rw [blank]
theorem flattenArr_blank : ∀ (xs : List (Json F)) (p : Bytes) (i : Nat), flattenArr p i (blankL xs) = flattenArr p i xs
  | [], p, i => by rw [blankL]
  | x :: xs, p, i => by rw [blankL, flattenArr, flattenArr, flattenRec_blank x, flattenArr_blank xs]
theorem flattenObj_blank : ∀ (ms : List (Bytes × Json F)) (p : Bytes), flattenObj p (blankM ms) = flattenObj p ms
  | [], p => by rw [blankM]
  | (k, x) :: xs, p => by rw [blankM, flattenObj, flattenObj, flattenRec_blank x, flattenObj_blank xs]
end

theorem deep_blank (v : Json F) : Deep (blank v) ↔ Deep v := by
  rcases v with _ | _ | _ | _ | _ | _ | xs | ms
  all_goals try simp [Deep, blank]; done
  · cases xs <;> simp [Deep, blank, blankL]
  · cases ms with
    | nil => simp [Deep, blank]
    | cons m ms => obtain ⟨k, x⟩ := m; simp [Deep, blank, blankM]

theorem before_blank (k : Bytes) (v : Json F) : Before k (blank v) ↔ Before k v := by
  rw [Before, Before, deep_blank]

mutual
theorem named_blank : ∀ v : Json F, Named (blank v) ↔ Named v
  | .arr [] => by simp [blank, Named, NamedL]
  | .arr (x :: xs) => by
    have := namedL_blank (x :: xs)
    simp only [blank, List.isEmpty_cons, Bool.false_eq_true, if_false]
    rw [Named, Named, this]
  | .obj [] => by simp [blank, Named, NamedM]
  | .obj (m :: ms) => by
    have := namedM_blank (m :: ms)
    simp only [blank, List.isEmpty_cons, Bool.false_eq_true, if_false]
    rw [Named, Named, this]
    refine and_congr_left fun _ => ?_
    rw [blankM_eq]
    constructor
    · intro h x hx
      obtain ⟨k, y, hk, hb⟩ := h (blank x) (List.mem_map.mpr ⟨_, hx, rfl⟩)
      obtain ⟨z, hz, e⟩ := List.mem_map.mp hk
      cases e
      exact ⟨z.1, z.2, hz, (before_blank _ _).mp hb⟩
    · intro h x hx
      obtain ⟨z, hz, e⟩ := List.mem_map.mp hx
      obtain ⟨l, z⟩ := z
      cases e
      obtain ⟨k, y, hk, hb⟩ := h z hz
      exact ⟨k, blank y, List.mem_map.mpr ⟨_, hk, rfl⟩, (before_blank _ _).mpr hb⟩
  | .null | .bool _ | .int _ | .uint _ | .float _ | .str _ => by rw [blank]
theorem namedL_blank : ∀ xs : List (Json F), NamedL (blankL xs) ↔ NamedL xs
  | [] => by rw [blankL]
  | x :: xs => by rw [blankL, NamedL, NamedL, named_blank x, namedL_blank xs]
theorem namedM_blank : ∀ xs : List (Bytes × Json F), NamedM (blankM xs) ↔ NamedM xs
  | [] => by rw [blankM]
  | (k, x) :: xs => by rw [blankM, NamedM, NamedM, named_blank x, namedM_blank xs]
end

mutual
theorem blank_all : ∀ v : Json F, Ordered v → Short v → Ordered (blank v) ∧ Short (blank v) ∧ Full (blank v)
  | .arr [], _, _ => by simp [blank, Ordered, Short, Full]
  | .arr (x :: xs), ho, hs => by
    rw [Ordered] at ho
    rw [Short] at hs
    obtain ⟨h1, h2, h3⟩ := blankL_all (x :: xs) ho hs.2
    simp only [blank, List.isEmpty_cons, Bool.false_eq_true, if_false]
    rw [Ordered, Short, Full]
    refine ⟨h1, ⟨?_, h2⟩, by simp [blankL], h3⟩
    rw [blankL_eq, List.length_map]
    exact hs.1
  | .obj [], _, _ => by simp [blank, Ordered, Short, Full]
  | .obj ((k, x) :: ms), ho, hs => by
    rw [Ordered] at ho
    rw [Short] at hs
    obtain ⟨h1, h2, h3⟩ := blankM_all ((k, x) :: ms) ho.2 hs
    simp only [blank, List.isEmpty_cons, Bool.false_eq_true, if_false]
    rw [Ordered, Short, Full]
    refine ⟨⟨?_, h1⟩, h2, by simp [blankM], h3⟩
    rw [blankM_eq]
    exact List.pairwise_map.mpr ho.1
  | .null, _, _ | .bool _, _, _ | .int _, _, _ | .uint _, _, _ | .float _, _, _ | .str _, _, _ => by
    simp [blank, Ordered, Short, Full]
theorem blankL_all : ∀ xs : List (Json F), OrderedL xs → ShortL xs → OrderedL (blankL xs) ∧ ShortL (blankL xs) ∧ FullL (blankL xs)
  | [], _, _ => by simp [blankL, OrderedL, ShortL, FullL]
  | x :: xs, ho, hs => by
    rw [OrderedL] at ho
    rw [ShortL] at hs
    obtain ⟨h1, h2, h3⟩ := blank_all x ho.1 hs.1
    obtain ⟨g1, g2, g3⟩ := blankL_all xs ho.2 hs.2
    rw [blankL, OrderedL, ShortL, FullL]
    exact ⟨⟨h1, g1⟩, ⟨h2, g2⟩, h3, g3⟩
theorem blankM_all : ∀ xs : List (Bytes × Json F), OrderedM xs → ShortM xs → OrderedM (blankM xs) ∧ ShortM (blankM xs) ∧ FullM (blankM xs)
  | [], _, _ => by simp [blankM, OrderedM, ShortM, FullM]
  | (k, x) :: xs, ho, hs => by
    rw [OrderedM] at ho
    rw [ShortM] at hs
    obtain ⟨h1, h2, h3⟩ := blank_all x ho.1 hs.1
    obtain ⟨g1, g2, g3⟩ := blankM_all xs ho.2 hs.2
    rw [blankM, OrderedM, ShortM, FullM]
    exact ⟨⟨h1, g1⟩, ⟨h2, g2⟩, h3, g3⟩
end

mutual
theorem blank_full : ∀ v : Json F, Full v → blank v = v
  | .arr xs, h => by
    rw [Full] at h
    rw [blank, blankL_full xs h.2, if_neg (by simpa using h.1)]
  | .obj xs, h => by
    rw [Full] at h
    rw [blank, blankM_full xs h.2, if_neg (by simpa using h.1)]
  | .null, _ | .bool _, _ | .int _, _ | .uint _, _ | .float _, _ | .str _, _ => by rw [blank]
theorem blankL_full : ∀ xs : List (Json F), FullL xs → blankL xs = xs
  | [], _ => rfl
  | x :: xs, h => by rw [FullL] at h; rw [blankL, blank_full x h.1, blankL_full xs h.2]
theorem blankM_full : ∀ xs : List (Bytes × Json F), FullM xs → blankM xs = xs
  | [], _ => rfl
  | (k, x) :: xs, h => by rw [FullM] at h; rw [blankM, blank_full x h.1, blankM_full xs h.2]
end

theorem Wrong.blank_ne {w u : Json F} (h : Wrong w u) : ∀ {v}, u = blank v → Ordered v → w ≠ v := by
  induction h with
  | here ys ms =>
    intro v e _ e'
    subst e'
    rw [blank] at e
    split at e <;> cases e
  | @member ns ms t w a hl hm _ ih =>
    intro v e ho e'
    subst e'
    rw [blank] at e
    split at e
    · cases e
    · injection e with e
      subst e
      rw [Ordered, orderedM_iff] at ho
      rw [blankM_eq] at hm
      obtain ⟨⟨l, z⟩, hz, e⟩ := List.mem_map.mp hm
      cases e
      have := (lookup_mem_iff ho.1).mpr hz
      rw [hl] at this
      injection this with this
      exact ih rfl (ho.2 _ hz) this
  | @element ys xs i w a hy hx _ ih =>
    intro v e ho e'
    subst e'
    rw [blank] at e
    split at e
    · cases e
    · injection e with e
      subst e
      rw [Ordered, orderedL_iff] at ho
      rw [blankL_eq, List.getElem?_map, hy] at hx
      injection hx with hx
      exact ih hx.symm (ho _ (List.mem_of_getElem? hy)) rfl

end Verif.Json
