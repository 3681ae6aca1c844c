import Verif.Json.GramLemmas

/-!
# Lemmas about the builder of values
-/

namespace Verif.Json
open Spec

mutual
/-- the value built from the value as it stands in the text: names once each, in order -/
def tidy : Json F → Json F
  | .null => .null
  | .bool b => .bool b
  | .int i => .int i
  | .uint n => .uint n
  | .float x => .float x
  | .str s => .str s
  | .arr xs => .arr (tidyL xs)
  | .obj ms => .obj (tidyM [] ms)
def tidyL : List (Json F) → List (Json F)
  | [] => []
  | v :: vs => tidy v :: tidyL vs
def tidyM (acc : List (Bytes × Json F)) : List (Bytes × Json F) → List (Bytes × Json F)
  | [] => acc
  | (k, v) :: ms => tidyM (setKey k (tidy v) acc) ms
end

theorem keyLt_irrefl : ∀ k : Bytes, keyLt k k = false
  | [] => rfl
  | a :: k => by simp [keyLt, keyLt_irrefl k]

theorem lookup_setKey (k : Bytes) (v : Json F) : ∀ ms, lookup k (setKey k v ms) = some v
  | [] => by simp [setKey, lookup, keyLt_irrefl]
  | (k', v') :: ms => by
    rw [setKey]
    by_cases h1 : keyLt k k' = true
    · rw [if_pos h1]; simp [lookup, keyLt_irrefl]
    · rw [if_neg h1]
      by_cases h2 : keyLt k' k = true
      · rw [if_pos h2, lookup, if_pos (Or.inr h2), lookup_setKey k v ms]
      · rw [if_neg h2]; simp [lookup, keyLt_irrefl]

theorem setKey_setKey (k : Bytes) (v w : Json F) : ∀ ms, setKey k w (setKey k v ms) = setKey k w ms
  | [] => by simp [setKey, keyLt_irrefl]
  | (k', v') :: ms => by
    rw [setKey, setKey]
    by_cases h1 : keyLt k k' = true
    · rw [if_pos h1, if_pos h1]; simp [setKey, keyLt_irrefl]
    · rw [if_neg h1, if_neg h1]
      by_cases h2 : keyLt k' k = true
      · rw [if_pos h2, if_pos h2, setKey, if_neg h1, if_pos h2, setKey_setKey k v w ms]
      · rw [if_neg h2, if_neg h2]; simp [setKey, keyLt_irrefl]

theorem getAt_append : ∀ (p q : Path) (r : Json F),
    getAt (p ++ q) r = (getAt p r).bind (getAt q)
  | [], q, r => rfl
  | .idx i :: p, q, r => by
    cases r with
    | arr xs =>
      rw [List.cons_append, getAt, getAt]
      cases xs[i]? with
      | none => rfl
      | some v => exact getAt_append p q v
    | _ => simp [getAt]
  | .key k :: p, q, r => by
    cases r with
    | obj ms =>
      rw [List.cons_append, getAt, getAt]
      cases lookup k ms with
      | none => rfl
      | some v => exact getAt_append p q v
    | _ => simp [getAt]

theorem setAt_append : ∀ (p q : Path) (w r c c' : Json F), getAt p r = some c →
    setAt q w c = some c' → setAt (p ++ q) w r = setAt p c' r
  | [], q, w, r, c, c', h, h' => by
    rw [getAt] at h; cases h; exact h'
  | .idx i :: p, q, w, r, c, c', h, h' => by
    cases r with
    | arr xs =>
      rw [getAt] at h
      rw [List.cons_append, setAt, setAt]
      cases hx : xs[i]? with
      | none => rw [hx] at h
      | some v =>
        rw [hx] at h
        simp only [setAt_append p q w v c c' h h']
    | _ => simp [getAt] at h
  | .key k :: p, q, w, r, c, c', h, h' => by
    cases r with
    | obj ms =>
      rw [getAt] at h
      rw [List.cons_append, setAt, setAt]
      cases hx : lookup k ms with
      | none => rw [hx] at h
      | some v =>
        rw [hx] at h
        simp only [setAt_append p q w v c c' h h']
    | _ => simp [getAt] at h

/-- the value at `p` in `K c` is `c`, and assigning to it changes nothing else -/
def Hole (p : Path) (K : Json F → Json F) : Prop :=
  ∀ c, getAt p (K c) = some c ∧ ∀ w, setAt p w (K c) = some (K w)

theorem Hole.root : Hole [] (fun c : Json F => c) := fun _ => ⟨rfl, fun _ => rfl⟩

theorem Hole.idx {p : Path} {K : Json F → Json F} (h : Hole p K) (xs : List (Json F)) :
    Hole (p ++ [.idx xs.length]) (fun c => K (.arr (xs ++ [c]))) := by
  intro c
  refine ⟨?_, fun w => ?_⟩
  · rw [getAt_append, (h _).1]; simp [getAt]
  · rw [setAt_append p _ w _ _ (.arr (xs ++ [w])) (h _).1 (by simp [setAt]), (h _).2]

theorem Hole.key {p : Path} {K : Json F → Json F} (h : Hole p K) (k : Bytes)
    (ms : List (Bytes × Json F)) :
    Hole (p ++ [.key k]) (fun c => K (.obj (setKey k c ms))) := by
  intro c
  refine ⟨?_, fun w => ?_⟩
  · rw [getAt_append, (h _).1]; simp [getAt, lookup_setKey]
  · rw [setAt_append p _ w _ _ (.obj (setKey k w ms)) (h _).1
      (by simp [setAt, lookup_setKey, setKey_setKey]), (h _).2]

/-- the next value goes to `q`, and makes the root `G v` -/
def Ready (d : Dom F) (q : Path) (G : Json F → Json F) : Prop :=
  Hole q G ∧ ∀ v, handleValue d v = some (⟨G v, d.refs, d.element⟩, q)

theorem Ready.root (old : Json F) : Ready (⟨old, [], none⟩ : Dom F) [] (fun c => c) :=
  ⟨Hole.root, fun _ => rfl⟩

theorem Ready.idx {p : Path} {K : Json F → Json F} (h : Hole p K) (xs : List (Json F))
    (rs : List Path) (el : Option Path) :
    Ready ⟨K (.arr xs), p :: rs, el⟩ (p ++ [.idx xs.length]) (fun c => K (.arr (xs ++ [c]))) := by
  refine ⟨h.idx xs, fun v => ?_⟩
  simp only [handleValue, (h _).1, (h _).2]

theorem Ready.key {p : Path} {K : Json F → Json F} (h : Hole p K) (k : Bytes)
    (ms : List (Bytes × Json F)) (rs : List Path) (el : Option Path) :
    ∃ d, (⟨K (.obj ms), p :: rs, el⟩ : Dom F).on (.key k) = some d ∧ d.refs = p :: rs ∧
      Ready d (p ++ [.key k]) (fun c => K (.obj (setKey k c ms))) := by
  simp only [Dom.on, (h _).1]
  cases hl : lookup k ms with
  | some v0 =>
    refine ⟨_, rfl, rfl, h.key k ms, fun v => ?_⟩
    simp only [handleValue, (h _).1]
    rw [setAt_append p _ v _ _ (.obj (setKey k v ms)) (h _).1 (by simp [setAt, hl]), (h _).2]
  | none =>
    simp only [(h _).2]
    refine ⟨_, rfl, rfl, h.key k ms, fun v => ?_⟩
    simp only [handleValue, (h _).1]
    rw [((h.key k ms) .null).2]

theorem Dom.onAll_cons {d d' : Dom F} {e : Event F} (es : List (Event F)) (h : d.on e = some d') :
    d.onAll (e :: es) = d'.onAll es := by rw [Dom.onAll, h]

mutual
/-- the calls for a value put the value, names once each and in order, where the builder stands -/
theorem onAll_events (v : Json F) (d : Dom F) (q : Path) (G : Json F → Json F) (h : Ready d q G) :
    ∃ el, ∀ es, d.onAll (events v ++ es) = (⟨G (tidy v), d.refs, el⟩ : Dom F).onAll es := by
  match v with
  | .null => exact ⟨d.element, fun es => Dom.onAll_cons es (by simp [Dom.on, h.2, tidy])⟩
  | .bool b => exact ⟨d.element, fun es => Dom.onAll_cons es (by simp [Dom.on, h.2, tidy])⟩
  | .int i => exact ⟨d.element, fun es => Dom.onAll_cons es (by simp [Dom.on, h.2, tidy])⟩
  | .uint n => exact ⟨d.element, fun es => Dom.onAll_cons es (by simp [Dom.on, h.2, tidy])⟩
  | .float x => exact ⟨d.element, fun es => Dom.onAll_cons es (by simp [Dom.on, h.2, tidy])⟩
  | .str s => exact ⟨d.element, fun es => Dom.onAll_cons es (by simp [Dom.on, h.2, tidy])⟩
  | .arr xs =>
    obtain ⟨el, hl⟩ := onAll_eventsL xs q G h.1 [] d.refs d.element
    refine ⟨el, fun es => ?_⟩
    rw [events, List.cons_append, Dom.onAll_cons _ (d' := ⟨G (.arr []), q :: d.refs, d.element⟩)
      (by simp [Dom.on, h.2]), List.append_assoc, hl, List.nil_append, tidy]
    exact Dom.onAll_cons es rfl
  | .obj ms =>
    obtain ⟨el, hl⟩ := onAll_eventsM ms q G h.1 [] d.refs d.element
    refine ⟨el, fun es => ?_⟩
    rw [events, List.cons_append, Dom.onAll_cons _ (d' := ⟨G (.obj []), q :: d.refs, d.element⟩)
      (by simp [Dom.on, h.2]), List.append_assoc, hl, tidy]
    exact Dom.onAll_cons es rfl
theorem onAll_eventsL (vs : List (Json F)) (p : Path) (K : Json F → Json F) (h : Hole p K)
    (xs : List (Json F)) (rs : List Path) (el : Option Path) :
    ∃ el', ∀ es, (⟨K (.arr xs), p :: rs, el⟩ : Dom F).onAll (eventsL vs ++ es) =
      (⟨K (.arr (xs ++ tidyL vs)), p :: rs, el'⟩ : Dom F).onAll es := by
  match vs with
  | [] => exact ⟨el, fun es => by rw [eventsL, tidyL]; simp⟩
  | v :: vs =>
    obtain ⟨el1, h1⟩ := onAll_events v _ _ _ (Ready.idx h xs rs el)
    obtain ⟨el2, h2⟩ := onAll_eventsL vs p K h (xs ++ [tidy v]) rs el1
    refine ⟨el2, fun es => ?_⟩
    rw [eventsL, List.append_assoc, h1, h2, tidyL]
    simp
theorem onAll_eventsM (ms : List (Bytes × Json F)) (p : Path) (K : Json F → Json F) (h : Hole p K)
    (acc : List (Bytes × Json F)) (rs : List Path) (el : Option Path) :
    ∃ el', ∀ es, (⟨K (.obj acc), p :: rs, el⟩ : Dom F).onAll (eventsM ms ++ es) =
      (⟨K (.obj (tidyM acc ms)), p :: rs, el'⟩ : Dom F).onAll es := by
  match ms with
  | [] => exact ⟨el, fun es => by rw [eventsM, tidyM]; simp⟩
  | (k, v) :: ms =>
    obtain ⟨d, hd, hr, hR⟩ := Ready.key h k acc rs el
    obtain ⟨el1, h1⟩ := onAll_events v d _ _ hR
    obtain ⟨el2, h2⟩ := onAll_eventsM ms p K h (setKey k (tidy v) acc) rs el1
    refine ⟨el2, fun es => ?_⟩
    rw [eventsM, List.cons_append, Dom.onAll_cons _ hd, List.append_assoc, h1, hr, h2, tidyM]
end

/-- the builder never fails on the calls for a value, and builds it -/
theorem build_events (v old : Json F) :
    ∃ d, (⟨old, [], none⟩ : Dom F).onAll (events v) = some d ∧ d.root = tidy v := by
  obtain ⟨el, h⟩ := onAll_events v _ _ _ (Ready.root old)
  have := h []
  rw [List.append_nil] at this
  exact ⟨_, this, rfl⟩

/-! ## Objects: names once each, in order, the last value -/

theorem keyLt_trans : ∀ {a b c : Bytes}, keyLt a b = true → keyLt b c = true → keyLt a c = true
  | [], _, [], h1, h2 => by
    rename_i b; cases b <;> simp [keyLt] at h1 h2
  | [], _, _ :: _, _, _ => rfl
  | _ :: _, [], _, h1, _ => by simp [keyLt] at h1
  | _ :: _, _ :: _, [], _, h2 => by simp [keyLt] at h2
  | x :: a, y :: b, z :: c, h1, h2 => by
    rw [keyLt] at h1 h2 ⊢
    by_cases xy : x < y
    · by_cases yz : y < z
      · rw [if_pos (by omega)]
      · rw [if_neg yz] at h2
        by_cases zy : z < y
        · rw [if_pos zy] at h2; cases h2
        · rw [if_pos (by omega)]
    · rw [if_neg xy] at h1
      by_cases yx : y < x
      · rw [if_pos yx] at h1; cases h1
      · rw [if_neg yx] at h1
        have : x = y := by omega
        subst this
        by_cases yz : x < z
        · rw [if_pos yz]
        · rw [if_neg yz] at h2 ⊢
          by_cases zy : z < x
          · rw [if_pos zy] at h2; cases h2
          · rw [if_neg zy] at h2 ⊢
            exact keyLt_trans h1 h2

theorem keyLt_total : ∀ {a b : Bytes}, keyLt a b ≠ true → keyLt b a ≠ true → a = b
  | [], [], _, _ => rfl
  | [], _ :: _, h, _ => absurd rfl h
  | _ :: _, [], _, h => absurd rfl h
  | x :: a, y :: b, h1, h2 => by
    rw [keyLt] at h1 h2
    by_cases xy : x < y
    · rw [if_pos xy] at h1; exact absurd rfl h1
    · by_cases yx : y < x
      · rw [if_pos yx] at h2; exact absurd rfl h2
      · rw [if_neg xy, if_neg yx] at h1
        rw [if_neg yx, if_neg xy] at h2
        rw [show x = y by omega, keyLt_total h1 h2]

theorem keyLt_iff : ∀ {a b : Bytes}, keyLt a b = true ↔ a < b
  | [], [] => by simp [keyLt]
  | [], _ :: _ => by simp [keyLt]
  | _ :: _, [] => by simp [keyLt]
  | x :: a, y :: b => by
    rw [keyLt, List.cons_lt_cons_iff]
    by_cases xy : x < y
    · simp [xy]
    · by_cases yx : y < x
      · simp [xy, yx]; omega
      · have : x = y := by omega
        subst this
        simpa using keyLt_iff

/-- names in order, each once -/
def SortedM : List (Bytes × Json F) → Prop := List.Pairwise (fun a b => a.1 < b.1)

theorem mem_setKey {k : Bytes} {v : Json F} {x : Bytes × Json F} :
    ∀ {ms : List (Bytes × Json F)}, SortedM ms →
      (x ∈ setKey k v ms ↔ x = (k, v) ∨ (x ∈ ms ∧ x.1 ≠ k))
  | [], _ => by simp [setKey]
  | (k', v') :: ms, hs => by
    have hs' := List.pairwise_cons.1 hs
    have ih := mem_setKey (k := k) (v := v) (x := x) hs'.2
    rw [setKey]
    have irr : ∀ a : Bytes, ¬ a < a := fun a h => by
      rw [← keyLt_iff, keyLt_irrefl] at h; cases h
    by_cases h1 : keyLt k k' = true
    · rw [if_pos h1]
      have h1' := keyLt_iff.1 h1
      constructor
      · intro h
        rcases List.mem_cons.1 h with h | h
        · exact Or.inl h
        · refine Or.inr ⟨h, fun e => ?_⟩
          rcases List.mem_cons.1 h with h | h
          · subst h; simp only at e; subst e; exact irr _ h1'
          · have := hs'.1 x h
            simp only at this
            rw [e] at this
            exact irr _ (keyLt_iff.1 (keyLt_trans (keyLt_iff.2 this) h1))
      · rintro (h | ⟨h, _⟩)
        · rw [h]; exact List.mem_cons_self
        · exact List.mem_cons_of_mem _ h
    · rw [if_neg h1]
      by_cases h2 : keyLt k' k = true
      · rw [if_pos h2]
        have h2' := keyLt_iff.1 h2
        rw [List.mem_cons, ih, List.mem_cons]
        constructor
        · rintro (h | h | h)
          · refine Or.inr ⟨Or.inl h, fun e => ?_⟩
            subst h; simp only at e; subst e; exact irr _ h2'
          · exact Or.inl h
          · exact Or.inr ⟨Or.inr h.1, h.2⟩
        · rintro (h | ⟨h | h, h'⟩)
          · exact Or.inr (Or.inl h)
          · exact Or.inl h
          · exact Or.inr (Or.inr ⟨h, h'⟩)
      · rw [if_neg h2]
        have e : k = k' := keyLt_total h1 h2
        subst e
        rw [List.mem_cons, List.mem_cons]
        constructor
        · rintro (h | h)
          · exact Or.inl h
          · refine Or.inr ⟨Or.inr h, fun e => ?_⟩
            have := hs'.1 x h
            simp only at this
            rw [e] at this
            exact irr _ this
        · rintro (h | ⟨h | h, h'⟩)
          · exact Or.inl h
          · subst h; exact absurd rfl h'
          · exact Or.inr h

theorem sorted_setKey {k : Bytes} {v : Json F} :
    ∀ {ms : List (Bytes × Json F)}, SortedM ms → SortedM (setKey k v ms)
  | [], _ => by simp [setKey, SortedM]
  | (k', v') :: ms, hs => by
    have hs' := List.pairwise_cons.1 hs
    rw [setKey]
    by_cases h1 : keyLt k k' = true
    · rw [if_pos h1]
      refine List.pairwise_cons.2 ⟨fun x hx => ?_, hs⟩
      rcases List.mem_cons.1 hx with h | h
      · subst h; exact keyLt_iff.1 h1
      · exact keyLt_iff.1 (keyLt_trans h1 (keyLt_iff.2 (hs'.1 x h)))
    · rw [if_neg h1]
      by_cases h2 : keyLt k' k = true
      · rw [if_pos h2]
        refine List.pairwise_cons.2 ⟨fun x hx => ?_, sorted_setKey hs'.2⟩
        rcases (mem_setKey hs'.2).1 hx with h | h
        · subst h; exact keyLt_iff.1 h2
        · exact hs'.1 x h.1
      · rw [if_neg h2]
        have e : k = k' := keyLt_total h1 h2
        subst e
        exact List.pairwise_cons.2 ⟨hs'.1, hs'.2⟩

theorem sorted_tidyM : ∀ (ms acc : List (Bytes × Json F)), SortedM acc → SortedM (tidyM acc ms)
  | [], acc, h => by rw [tidyM]; exact h
  | (k, v) :: ms, acc, h => by rw [tidyM]; exact sorted_tidyM ms _ (sorted_setKey h)

theorem mem_tidyM (k : Bytes) (w : Json F) : ∀ (ms acc : List (Bytes × Json F)), SortedM acc →
    ((k, w) ∈ tidyM acc ms ↔
      (∃ a v b, ms = a ++ (k, v) :: b ∧ (∀ x ∈ b, x.1 ≠ k) ∧ w = tidy v) ∨
      ((k, w) ∈ acc ∧ ∀ x ∈ ms, x.1 ≠ k))
  | [], acc, _ => by simp [tidyM]
  | (k', v') :: ms, acc, h => by
    rw [tidyM, mem_tidyM k w ms _ (sorted_setKey h), mem_setKey h]
    constructor
    · rintro (⟨a, v, b, e, hb, hw⟩ | ⟨h1 | h1, h2⟩)
      · exact Or.inl ⟨(k', v') :: a, v, b, by rw [e]; rfl, hb, hw⟩
      · cases h1
        exact Or.inl ⟨[], v', ms, rfl, h2, rfl⟩
      · refine Or.inr ⟨h1.1, fun x hx => ?_⟩
        rcases List.mem_cons.1 hx with hx | hx
        · subst hx; exact fun e => h1.2 e.symm
        · exact h2 x hx
    · rintro (⟨a, v, b, e, hb, hw⟩ | ⟨h1, h2⟩)
      · rcases a with _ | ⟨y, a⟩
        · cases e
          exact Or.inr ⟨Or.inl (by rw [hw]), hb⟩
        · cases e
          exact Or.inl ⟨a, v, b, rfl, hb, hw⟩
      · refine Or.inr ⟨Or.inr ⟨h1, fun e => ?_⟩, fun x hx => h2 x (List.mem_cons_of_mem _ hx)⟩
        exact h2 (k', v') List.mem_cons_self e.symm

end Verif.Json
