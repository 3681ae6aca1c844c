import Verif.Json.TornModel
import Verif.Json.SaxLemmas
import Verif.Json.MapLemmas

/-!
# Lemmas about values of which a part only has been read
-/

namespace Verif.Json
open Spec

namespace Spec

/-- `Torn es v`: the calls `es` are the first of those for a value, and at least one, and `v` is what there is of the
value: the elements and members so far, the last of them possibly torn itself.  A key
without value is there with the value null; if the same key is there already, nothing is added. -/
inductive Torn {F : Type} : List (Event F) → Json F → Prop
  | whole (v : Json F) : Torn (events v) v
  | arr (xs : List (Json F)) : Torn (.startArray :: eventsL xs) (.arr xs)
  | elem (xs : List (Json F)) {es : List (Event F)} {v : Json F} :
      Torn es v → Torn (.startArray :: (eventsL xs ++ es)) (.arr (xs ++ [v]))
  | obj (ms : List (Bytes × Json F)) : Torn (.startObject :: eventsM ms) (.obj ms)
  | key (ms : List (Bytes × Json F)) (k : Bytes) : (∀ m ∈ ms, m.1 ≠ k) →
      Torn (.startObject :: (eventsM ms ++ [.key k])) (.obj (ms ++ [(k, .null)]))
  | again (ms : List (Bytes × Json F)) (k : Bytes) : (∃ m ∈ ms, m.1 = k) →
      Torn (.startObject :: (eventsM ms ++ [.key k])) (.obj ms)
  | member (ms : List (Bytes × Json F)) (k : Bytes) {es : List (Event F)} {v : Json F} :
      Torn es v → Torn (.startObject :: (eventsM ms ++ .key k :: es)) (.obj (ms ++ [(k, v)]))

end Spec

theorem append_eq_snoc {α : Type} {a b l : List α} {x : α} (h : a ++ b = l ++ [x]) :
    (∃ c, a ++ c = l) ∨ a = l ++ [x] := by
  rcases List.eq_nil_or_concat b with rfl | ⟨c, y, rfl⟩
  · exact .inr (by simpa using h)
  · refine .inl ⟨c, ?_⟩
    rw [List.concat_eq_append, ← List.append_assoc] at h
    exact (List.append_inj' h rfl).1

mutual
/-- the first calls for a value, unless there are none, belong to a torn value -/
theorem torn_prefix (w : Json F) (es more : List (Event F)) (h : es ++ more = events w) :
    es = [] ∨ ∃ v, Torn es v := by
  have one : ∀ e : Event F, events w = [e] → es = [] ∨ ∃ v, Torn es v := by
    intro e he
    rw [he] at h
    rcases es with _ | ⟨x, es⟩
    · exact .inl rfl
    · refine .inr ⟨w, ?_⟩
      rw [List.cons_append, List.cons.injEq, List.append_eq_nil_iff] at h
      obtain ⟨rfl, rfl, rfl⟩ := h
      rw [← he]
      exact .whole w
  match w with
  | .null => exact one _ rfl
  | .bool _ => exact one _ rfl
  | .int _ => exact one _ rfl
  | .uint _ => exact one _ rfl
  | .float _ => exact one _ rfl
  | .str _ => exact one _ rfl
  | .arr xs =>
    rcases es with _ | ⟨x, es⟩
    · exact .inl rfl
    · refine .inr ?_
      rw [events, List.cons_append, List.cons.injEq] at h
      obtain ⟨rfl, h⟩ := h
      rcases append_eq_snoc h with ⟨c, h⟩ | h
      · obtain ⟨ys, q, rfl, rfl | ⟨v, hv⟩⟩ := torn_prefixL xs es c h
        · exact ⟨_, by simpa using Torn.arr ys⟩
        · exact ⟨_, Torn.elem ys hv⟩
      · exact ⟨.arr xs, by rw [h]; exact Torn.whole (.arr xs)⟩
  | .obj ms =>
    rcases es with _ | ⟨x, es⟩
    · exact .inl rfl
    · refine .inr ?_
      rw [events, List.cons_append, List.cons.injEq] at h
      obtain ⟨rfl, h⟩ := h
      rcases append_eq_snoc h with ⟨c, h⟩ | h
      · obtain ⟨ys, q, rfl, rfl | ⟨k, rfl⟩ | ⟨k, q, v, rfl, hv⟩⟩ := torn_prefixM ms es c h
        · exact ⟨_, by simpa using Torn.obj ys⟩
        · by_cases hk : ∃ m ∈ ys, m.1 = k
          · exact ⟨_, Torn.again ys k hk⟩
          · exact ⟨_, Torn.key ys k (fun m hm e => hk ⟨m, hm, e⟩)⟩
        · exact ⟨_, Torn.member ys k hv⟩
      · exact ⟨.obj ms, by rw [h]; exact Torn.whole (.obj ms)⟩
theorem torn_prefixL (xs : List (Json F)) (es more : List (Event F)) (h : es ++ more = eventsL xs) :
    ∃ ys q, es = eventsL ys ++ q ∧ (q = [] ∨ ∃ v, Torn q v) := by
  match xs with
  | [] =>
    rw [eventsL, List.append_eq_nil_iff] at h
    exact ⟨[], [], by rw [h.1]; rfl, .inl rfl⟩
  | x :: xs =>
    rw [eventsL, List.append_eq_append_iff] at h
    rcases h with ⟨a, h1, _⟩ | ⟨a, h1, h2⟩
    · exact ⟨[], es, rfl, torn_prefix x es a h1.symm⟩
    · obtain ⟨ys, q, rfl, hq⟩ := torn_prefixL xs a more h2.symm
      exact ⟨x :: ys, q, by rw [h1, eventsL, List.append_assoc], hq⟩
theorem torn_prefixM (ms : List (Bytes × Json F)) (es more : List (Event F)) (h : es ++ more = eventsM ms) :
    ∃ ys q, es = eventsM ys ++ q ∧ (q = [] ∨ (∃ k, q = [.key k]) ∨ ∃ k q' v, q = .key k :: q' ∧ Torn q' v) := by
  match ms with
  | [] =>
    rw [eventsM, List.append_eq_nil_iff] at h
    exact ⟨[], [], by rw [h.1]; rfl, .inl rfl⟩
  | (k, x) :: ms =>
    rcases es with _ | ⟨e, es⟩
    · exact ⟨[], [], rfl, .inl rfl⟩
    · rw [eventsM, List.cons_append, List.cons.injEq] at h
      obtain ⟨rfl, h⟩ := h
      rw [List.append_eq_append_iff] at h
      rcases h with ⟨a, h1, _⟩ | ⟨a, h1, h2⟩
      · refine ⟨[], _, rfl, .inr ?_⟩
        rcases torn_prefix x es a h1.symm with rfl | ⟨v, hv⟩
        · exact .inl ⟨k, rfl⟩
        · exact .inr ⟨k, es, v, rfl, hv⟩
      · obtain ⟨ys, q, rfl, hq⟩ := torn_prefixM ms a more h2.symm
        exact ⟨(k, x) :: ys, q, by rw [h1, eventsM]; simp, hq⟩
end

theorem tidyL_snoc (v : Json F) : ∀ xs : List (Json F), tidyL (xs ++ [v]) = tidyL xs ++ [tidy v]
  | [] => rfl
  | x :: xs => by rw [List.cons_append, tidyL, tidyL, tidyL_snoc v xs, List.cons_append]

theorem tidyM_snoc (k : Bytes) (v : Json F) : ∀ ms acc : List (Bytes × Json F),
    tidyM acc (ms ++ [(k, v)]) = setKey k (tidy v) (tidyM acc ms)
  | [], acc => rfl
  | (k', v') :: ms, acc => by rw [List.cons_append, tidyM, tidyM, tidyM_snoc k v ms]

theorem lookup_tidyM_none {k : Bytes} : ∀ (ms acc : List (Bytes × Json F)),
    lookup k (tidyM acc ms) = none ↔ lookup k acc = none ∧ ∀ m ∈ ms, m.1 ≠ k
  | [], acc => by simp [tidyM]
  | (k', v') :: ms, acc => by
    rw [tidyM, lookup_tidyM_none ms]
    by_cases h : k = k'
    · subst h
      simp [lookup_setKey]
    · rw [lookup_setKey_ne h]
      have h' : ¬ k' = k := fun e => h e.symm
      simp [h']

/-- the builder makes, of the calls for a torn value, that value -/
theorem onAll_torn {es : List (Event F)} {raw : Json F} (ht : Torn es raw) :
    ∀ (d : Dom F) (q : Path) (G : Json F → Json F), Ready d q G →
      ∃ d', d.onAll es = some d' ∧ d'.root = G (tidy raw) := by
  have begun : ∀ (d : Dom F) (q : Path) (G : Json F → Json F), Ready d q G →
      (∀ es, d.onAll (.startArray :: es) = (⟨G (.arr []), q :: d.refs, d.element⟩ : Dom F).onAll es) ∧
      (∀ es, d.onAll (.startObject :: es) = (⟨G (.obj []), q :: d.refs, d.element⟩ : Dom F).onAll es) :=
    fun d q G h => ⟨fun es => Dom.onAll_cons _ (by simp [Dom.on, h.2]), fun es => Dom.onAll_cons _ (by simp [Dom.on, h.2])⟩
  have keyed : ∀ {p : Path} {K : Json F → Json F}, Hole p K → ∀ (k : Bytes) (ms : List (Bytes × Json F)) (rs el),
      ∃ d', (⟨K (.obj ms), p :: rs, el⟩ : Dom F).onAll [.key k] = some d' ∧
        d'.root = K (.obj (if lookup k ms = none then setKey k .null ms else ms)) := by
    intro p K h k ms rs el
    simp only [Dom.onAll, Dom.on, (h _).1]
    cases hl : lookup k ms with
    | some v => exact ⟨_, rfl, by simp⟩
    | none =>
      simp only [(h _).2]
      exact ⟨_, rfl, by simp⟩
  induction ht with
  | whole v =>
    intro d q G h
    obtain ⟨el, he⟩ := onAll_events v d q G h
    have := he []
    rw [List.append_nil] at this
    exact ⟨_, this, rfl⟩
  | arr xs =>
    intro d q G h
    obtain ⟨el, he⟩ := onAll_eventsL xs q G h.1 [] d.refs d.element
    have := he []
    rw [List.append_nil] at this
    exact ⟨_, by rw [(begun d q G h).1, this]; rfl, by rw [tidy]; rfl⟩
  | elem xs ht ih =>
    intro d q G h
    obtain ⟨el, he⟩ := onAll_eventsL xs q G h.1 [] d.refs d.element
    obtain ⟨d', hd, hr⟩ := ih _ _ _ (Ready.idx h.1 ([] ++ tidyL xs) d.refs el)
    exact ⟨d', by rw [(begun d q G h).1, he, hd], by rw [hr, tidy, tidyL_snoc]; rfl⟩
  | obj ms =>
    intro d q G h
    obtain ⟨el, he⟩ := onAll_eventsM ms q G h.1 [] d.refs d.element
    have := he []
    rw [List.append_nil] at this
    exact ⟨_, by rw [(begun d q G h).2, this]; rfl, by rw [tidy]⟩
  | key ms k hk =>
    intro d q G h
    obtain ⟨el, he⟩ := onAll_eventsM ms q G h.1 [] d.refs d.element
    obtain ⟨d', hd, hr⟩ := keyed h.1 k (tidyM [] ms) d.refs el
    refine ⟨d', by rw [(begun d q G h).2, he, hd], ?_⟩
    rw [hr, if_pos ((lookup_tidyM_none ms []).2 ⟨rfl, hk⟩), tidy, tidyM_snoc, tidy]
  | again ms k hk =>
    intro d q G h
    obtain ⟨el, he⟩ := onAll_eventsM ms q G h.1 [] d.refs d.element
    obtain ⟨d', hd, hr⟩ := keyed h.1 k (tidyM [] ms) d.refs el
    refine ⟨d', by rw [(begun d q G h).2, he, hd], ?_⟩
    obtain ⟨m, hm, e⟩ := hk
    rw [hr, if_neg (fun hn => ((lookup_tidyM_none ms []).1 hn).2 m hm e), tidy]
  | member ms k ht ih =>
    intro d q G h
    obtain ⟨el, he⟩ := onAll_eventsM ms q G h.1 [] d.refs d.element
    obtain ⟨d1, hd1, hr1, hR⟩ := Ready.key h.1 k (tidyM [] ms) d.refs el
    obtain ⟨d', hd, hr⟩ := ih _ _ _ hR
    exact ⟨d', by rw [(begun d q G h).2, he, Dom.onAll_cons _ hd1, hd], by rw [hr, tidy, tidyM_snoc]⟩

theorem deliver_torn : ∀ (es : List (Event F)) (d d' : Dom F) (o : Option String), d.onAll es = some d' →
    deliver tornBuilder es (d, o) = .ok (true, (d', o))
  | [], d, d', o, h => by cases h; rfl
  | e :: es, d, d', o, h => by
    rw [Dom.onAll] at h
    cases he : d.on e with
    | none => rw [he] at h; cases h
    | some d1 =>
      rw [he] at h
      rw [deliver]
      simp only [tornBuilder, he, Outcome.bind_ok, if_true]
      exact deliver_torn es d1 d' o h

end Verif.Json
