import Verif.Json.PatchModel
import Verif.Json.DomLemmas
import Verif.Json.ReadBackLemmas

/-!
# Lemmas about the maps of JSON objects
-/

namespace Verif.Json
open Spec

variable {F : Type}

theorem key_irrefl (a : Bytes) : ¬ a < a := fun h => by rw [← keyLt_iff, keyLt_irrefl] at h; cases h

theorem key_trans {a b c : Bytes} (h1 : a < b) (h2 : b < c) : a < c :=
  keyLt_iff.1 (keyLt_trans (keyLt_iff.2 h1) (keyLt_iff.2 h2))

theorem key_asymm {a b : Bytes} (h1 : a < b) : ¬ b < a := fun h2 => key_irrefl _ (key_trans h1 h2)

theorem key_total (a b : Bytes) : a < b ∨ a = b ∨ b < a := by
  by_cases h1 : keyLt a b = true
  · exact .inl (keyLt_iff.1 h1)
  · by_cases h2 : keyLt b a = true
    · exact .inr (.inr (keyLt_iff.1 h2))
    · exact .inr (.inl (keyLt_total h1 h2))

theorem keys_differ {a b : Bytes} : (keyLt a b = true ∨ keyLt b a = true) ↔ a ≠ b := by
  rw [keyLt_iff, keyLt_iff]
  constructor
  · rintro (h | h) rfl <;> exact key_irrefl _ h
  · intro h
    rcases key_total a b with h' | h' | h'
    · exact .inl h'
    · exact absurd h' h
    · exact .inr h'

theorem lookup_nil (k : Bytes) : lookup k ([] : List (Bytes × Json F)) = none := rfl

theorem lookup_cons (k k' : Bytes) (v : Json F) (ms : List (Bytes × Json F)) :
    lookup k ((k', v) :: ms) = if k = k' then some v else lookup k ms := by
  rw [lookup]
  by_cases h : k = k'
  · rw [if_pos h, if_neg (by rw [keys_differ]; exact fun h' => h' h)]
  · rw [if_neg h, if_pos (keys_differ.mpr h)]

theorem setKey_cons (k k' : Bytes) (v v' : Json F) (ms : List (Bytes × Json F)) :
    setKey k v ((k', v') :: ms) =
      if k < k' then (k, v) :: (k', v') :: ms else if k = k' then (k, v) :: ms else (k', v') :: setKey k v ms := by
  rw [setKey]
  by_cases h1 : k < k'
  · rw [if_pos h1, if_pos (keyLt_iff.2 h1)]
  · rw [if_neg h1, if_neg (fun h => h1 (keyLt_iff.1 h))]
    by_cases h2 : k = k'
    · rw [if_pos h2, if_neg (fun h => by rw [keyLt_iff, h2] at h; exact key_irrefl _ h)]
    · rw [if_neg h2, if_pos]
      rw [keyLt_iff]
      rcases key_total k k' with h | h | h
      · exact absurd h h1
      · exact absurd h h2
      · exact h

theorem eraseKey_cons (k k' : Bytes) (v : Json F) (ms : List (Bytes × Json F)) :
    eraseKey k ((k', v) :: ms) = if k = k' then ms else (k', v) :: eraseKey k ms := by
  rw [eraseKey]
  by_cases h : k = k'
  · rw [if_pos h, if_neg (by rw [keys_differ]; exact fun h' => h' h)]
  · rw [if_neg h, if_pos (keys_differ.mpr h)]

theorem lookup_setKey_ne {k k' : Bytes} (h : k ≠ k') (v : Json F) : ∀ ms : List (Bytes × Json F),
    lookup k (setKey k' v ms) = lookup k ms
  | [] => by rw [setKey, lookup_cons, if_neg h]
  | (l, w) :: ms => by
    rw [setKey_cons]
    by_cases h1 : k' < l
    · rw [if_pos h1, lookup_cons, if_neg h]
    · rw [if_neg h1]
      by_cases h2 : k' = l
      · rw [if_pos h2, lookup_cons, if_neg h, lookup_cons, if_neg (by rw [← h2]; exact h)]
      · rw [if_neg h2, lookup_cons, lookup_cons, lookup_setKey_ne h v ms]

theorem lookup_none_iff {k : Bytes} : ∀ {ms : List (Bytes × Json F)}, lookup k ms = none ↔ ∀ x ∈ ms, x.1 ≠ k
  | [] => by simp [lookup_nil]
  | (l, w) :: ms => by
    rw [lookup_cons]
    by_cases h : k = l
    · rw [if_pos h]; simp [h]
    · rw [if_neg h, lookup_none_iff]
      simp only [List.mem_cons, forall_eq_or_imp]
      exact ⟨fun h' => ⟨fun e => h e.symm, h'⟩, fun h' => h'.2⟩

theorem lookup_mem {k : Bytes} {v : Json F} : ∀ {ms : List (Bytes × Json F)}, lookup k ms = some v → (k, v) ∈ ms
  | [], h => by rw [lookup_nil] at h; cases h
  | (l, w) :: ms, h => by
    rw [lookup_cons] at h
    by_cases e : k = l
    · rw [if_pos e] at h; cases h; rw [e]; exact List.mem_cons_self
    · rw [if_neg e] at h; exact List.mem_cons_of_mem _ (lookup_mem h)

theorem lookup_mem_iff {k : Bytes} {v : Json F} : ∀ {ms : List (Bytes × Json F)}, SortedM ms →
    (lookup k ms = some v ↔ (k, v) ∈ ms)
  | [], _ => by simp [lookup_nil]
  | (l, w) :: ms, hs => by
    have hs' := List.pairwise_cons.1 hs
    refine ⟨lookup_mem, fun h => ?_⟩
    rw [lookup_cons]
    rcases List.mem_cons.1 h with h | h
    · cases h; rw [if_pos rfl]
    · have h1 := hs'.1 _ h
      rw [if_neg (fun e => by rw [e] at h1; exact key_irrefl _ h1)]
      exact (lookup_mem_iff hs'.2).mpr h

theorem eraseKey_sub {k : Bytes} {x : Bytes × Json F} : ∀ {ms : List (Bytes × Json F)}, x ∈ eraseKey k ms → x ∈ ms
  | [], h => by rw [eraseKey] at h; exact h
  | (l, w) :: ms, h => by
    rw [eraseKey_cons] at h
    by_cases e : k = l
    · rw [if_pos e] at h; exact List.mem_cons_of_mem _ h
    · rw [if_neg e] at h
      rcases List.mem_cons.1 h with h | h
      · rw [h]; exact List.mem_cons_self
      · exact List.mem_cons_of_mem _ (eraseKey_sub h)

theorem sorted_eraseKey {k : Bytes} : ∀ {ms : List (Bytes × Json F)}, SortedM ms → SortedM (eraseKey k ms)
  | [], _ => by rw [eraseKey]; exact List.Pairwise.nil
  | (l, w) :: ms, hs => by
    have hs' := List.pairwise_cons.1 hs
    rw [eraseKey_cons]
    by_cases e : k = l
    · rw [if_pos e]; exact hs'.2
    · rw [if_neg e]
      exact List.pairwise_cons.2 ⟨fun x hx => hs'.1 x (eraseKey_sub hx), sorted_eraseKey hs'.2⟩

theorem lookup_eraseKey {k : Bytes} : ∀ {ms : List (Bytes × Json F)}, SortedM ms → lookup k (eraseKey k ms) = none
  | [], _ => by rw [eraseKey, lookup_nil]
  | (l, w) :: ms, hs => by
    have hs' := List.pairwise_cons.1 hs
    rw [eraseKey_cons]
    by_cases e : k = l
    · rw [if_pos e, lookup_none_iff]
      intro x hx h
      have := hs'.1 x hx
      simp only at this
      rw [h, e] at this
      exact key_irrefl _ this
    · rw [if_neg e, lookup_cons, if_neg e, lookup_eraseKey hs'.2]

theorem lookup_eraseKey_ne {k k' : Bytes} (h : k ≠ k') : ∀ ms : List (Bytes × Json F),
    lookup k (eraseKey k' ms) = lookup k ms
  | [] => rfl
  | (l, w) :: ms => by
    rw [eraseKey_cons]
    by_cases e : k' = l
    · rw [if_pos e, lookup_cons, if_neg (by rw [← e]; exact h)]
    · rw [if_neg e, lookup_cons, lookup_cons, lookup_eraseKey_ne h ms]

/-- two maps with the same entries are the same -/
theorem map_ext : ∀ {ms ns : List (Bytes × Json F)}, SortedM ms → SortedM ns →
    (∀ k, lookup k ms = lookup k ns) → ms = ns
  | [], [], _, _, _ => rfl
  | [], (l, w) :: ns, _, _, h => by
    have := h l
    rw [lookup_nil, lookup_cons, if_pos rfl] at this
    cases this
  | (l, w) :: ms, [], _, _, h => by
    have := h l
    rw [lookup_nil, lookup_cons, if_pos rfl] at this
    cases this
  | (k, v) :: ms, (l, w) :: ns, hm, hn, h => by
    have hm' := List.pairwise_cons.1 hm
    have hn' := List.pairwise_cons.1 hn
    have hkl : k = l := by
      rcases key_total k l with hlt | he | hlt
      · have := h k
        rw [lookup_cons, if_pos rfl, lookup_cons, if_neg (fun e => by rw [e] at hlt; exact key_irrefl _ hlt)] at this
        have := hn'.1 _ (lookup_mem this.symm)
        exact absurd hlt (key_asymm this)
      · exact he
      · have := h l
        rw [lookup_cons l l, if_pos rfl, lookup_cons, if_neg (fun e => by rw [e] at hlt; exact key_irrefl _ hlt)] at this
        have := hm'.1 _ (lookup_mem this)
        exact absurd hlt (key_asymm this)
    subst hkl
    have hv : v = w := by
      have := h k
      rw [lookup_cons, if_pos rfl, lookup_cons, if_pos rfl] at this
      exact Option.some.inj this
    subst hv
    congr 1
    refine map_ext hm'.2 hn'.2 fun k' => ?_
    by_cases e : k' = k
    · have h1 : lookup k' ms = none := by
        rw [lookup_none_iff]
        intro x hx hx'
        have := hm'.1 x hx
        simp only at this
        rw [hx', e] at this
        exact key_irrefl _ this
      have h2 : lookup k' ns = none := by
        rw [lookup_none_iff]
        intro x hx hx'
        have := hn'.1 x hx
        simp only at this
        rw [hx', e] at this
        exact key_irrefl _ this
      rw [h1, h2]
    · have := h k'
      rw [lookup_cons, if_neg e, lookup_cons, if_neg e] at this
      exact this

theorem setKey_same {k : Bytes} {v : Json F} {ms : List (Bytes × Json F)} (hs : SortedM ms)
    (h : lookup k ms = some v) : setKey k v ms = ms := by
  refine map_ext (sorted_setKey hs) hs fun k' => ?_
  by_cases e : k' = k
  · rw [e, lookup_setKey, h]
  · rw [lookup_setKey_ne e]

theorem orderedM_mem {k : Bytes} {v : Json F} : ∀ {ms : List (Bytes × Json F)}, OrderedM ms → (k, v) ∈ ms → Ordered v
  | [], _, h => by simp at h
  | (l, w) :: ms, ho, h => by
    rw [OrderedM] at ho
    rcases List.mem_cons.1 h with h | h
    · cases h; exact ho.1
    · exact orderedM_mem ho.2 h

theorem orderedM_of {ms : List (Bytes × Json F)} (h : ∀ x ∈ ms, Ordered x.2) : OrderedM ms := by
  induction ms with
  | nil => simp [OrderedM]
  | cons x ms ih =>
    obtain ⟨k, v⟩ := x
    rw [OrderedM]
    exact ⟨h (k, v) (by simp), ih (fun y hy => h y (by simp [hy]))⟩

theorem orderedL_iff {xs : List (Json F)} : OrderedL xs ↔ ∀ x ∈ xs, Ordered x := by
  induction xs with
  | nil => simp [OrderedL]
  | cons x xs ih => rw [OrderedL, ih]; simp

theorem orderedM_iff {ms : List (Bytes × Json F)} : OrderedM ms ↔ ∀ x ∈ ms, Ordered x.2 :=
  ⟨fun h x hx => orderedM_mem (k := x.1) h hx, orderedM_of⟩

theorem ordered_lookup {k : Bytes} {v : Json F} {ms : List (Bytes × Json F)} (h : Ordered (.obj ms))
    (hl : lookup k ms = some v) : Ordered v := by
  rw [Ordered] at h
  exact orderedM_mem h.2 (lookup_mem hl)

theorem ordered_setKey {k : Bytes} {v : Json F} {ms : List (Bytes × Json F)} (h : Ordered (.obj ms))
    (hv : Ordered v) : Ordered (.obj (setKey k v ms)) := by
  rw [Ordered] at h ⊢
  refine ⟨sorted_setKey h.1, orderedM_of fun x hx => ?_⟩
  rcases (mem_setKey h.1).mp hx with rfl | ⟨hx, _⟩
  · exact hv
  · exact orderedM_iff.mp h.2 x hx

theorem ordered_eraseKey {k : Bytes} {ms : List (Bytes × Json F)} (h : Ordered (.obj ms)) :
    Ordered (.obj (eraseKey k ms)) := by
  rw [Ordered] at h ⊢
  exact ⟨sorted_eraseKey h.1, orderedM_of fun x hx => orderedM_iff.mp h.2 x (eraseKey_sub hx)⟩

end Verif.Json
