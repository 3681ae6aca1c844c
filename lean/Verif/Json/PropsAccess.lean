import Verif.Json.AccessModel
import Verif.Json.MapLemmas

/-! # C153: access to elements of a JSON value -/

namespace Verif.Json
open Verif Spec

variable {F T : Type}

/-- `ss` leads from a value to a value in it: members by name, elements by number -/
inductive Reach : Json F → List Acc → Json F → Prop
  | here (v : Json F) : Reach v [] v
  | key {ms : List (Bytes × Json F)} {k : Bytes} {w u : Json F} {ss : List Acc} :
    (k, w) ∈ ms → Reach w ss u → Reach (.obj ms) (.key k :: ss) u
  | idx {xs : List (Json F)} {i : Nat} {w u : Json F} {ss : List Acc} :
    xs[i]? = some w → Reach w ss u → Reach (.arr xs) (.idx i :: ss) u

/-- a value has no element for a step, and the documented exception of `at` for that -/
inductive Lacks : Json F → Acc → String → Prop
  | member {ms : List (Bytes × Json F)} {k : Bytes} : (∀ x ∈ ms, x.1 ≠ k) → Lacks (.obj ms) (.key k) "out_of_range.403"
  | element {xs : List (Json F)} {i : Nat} : xs.length ≤ i → Lacks (.arr xs) (.idx i) "out_of_range.401"
  | noObject {v : Json F} {k : Bytes} : (∀ ms, v ≠ .obj ms) → Lacks v (.key k) "type_error.304"
  | noArray {v : Json F} {i : Nat} : (∀ xs, v ≠ .arr xs) → Lacks v (.idx i) "type_error.304"

/-- a value that is not null, and not of the type a step is for -/
inductive Clash : Json F → Acc → Prop
  | noObject {v : Json F} {k : Bytes} : v ≠ .null → (∀ ms, v ≠ .obj ms) → Clash v (.key k)
  | noArray {v : Json F} {i : Nat} : v ≠ .null → (∀ xs, v ≠ .arr xs) → Clash v (.idx i)

theorem atChain_key (k : Bytes) (ss : List Acc) (v w : Json F) :
    atChain (.key k :: ss) v = .ok w ↔ ∃ ms u, v = .obj ms ∧ lookup k ms = some u ∧ atChain ss u = .ok w := by
  rw [atChain.eq_def]
  cases v with
  | obj ms =>
    simp only
    cases h : lookup k ms with
    | none => simp [h]
    | some u => simp [h]
  | _ => simp

theorem atChain_idx (i : Nat) (ss : List Acc) (v w : Json F) :
    atChain (.idx i :: ss) v = .ok w ↔ ∃ (xs : List (Json F)) (u : Json F), v = .arr xs ∧ xs[i]? = some u ∧ atChain ss u = .ok w := by
  rw [atChain.eq_def]
  cases v with
  | arr xs =>
    simp only
    cases h : xs[i]? with
    | none => simp [h]
    | some u => simp [h]
  | _ => simp

theorem ordered_get {xs : List (Json F)} {i : Nat} {u : Json F} (h : Ordered (.arr xs)) (hi : xs[i]? = some u) :
    Ordered u := by
  rw [Ordered, orderedL_iff] at h
  exact h u (List.mem_of_getElem? hi)

theorem reach_iff : ∀ {ss : List Acc} {v w : Json F}, Ordered v → (Reach v ss w ↔ atChain ss v = .ok w)
  | [], v, w, _ => by
    rw [atChain]
    constructor
    · intro h; cases h; rfl
    · intro h; cases h; exact .here _
  | .key k :: ss, v, w, ho => by
    rw [atChain_key]
    constructor
    · intro h
      cases h with
      | key hm hr =>
        have hl := (lookup_mem_iff (by rw [Ordered] at ho; exact ho.1)).mpr hm
        exact ⟨_, _, rfl, hl, (reach_iff (ordered_lookup ho hl)).mp hr⟩
    · rintro ⟨ms, u, rfl, hl, h⟩
      exact .key (lookup_mem hl) ((reach_iff (ordered_lookup ho hl)).mpr h)
  | .idx i :: ss, v, w, ho => by
    rw [atChain_idx]
    constructor
    · intro h
      cases h with
      | idx hm hr => exact ⟨_, _, rfl, hm, (reach_iff (ordered_get ho hm)).mp hr⟩
    · rintro ⟨xs, u, rfl, hl, h⟩
      exact .idx hl ((reach_iff (ordered_get ho hl)).mpr h)

theorem set_same {xs : List (Json F)} {i : Nat} {u : Json F} (h : xs[i]? = some u) : xs.set i u = xs := by
  obtain ⟨hi, e⟩ := List.getElem?_eq_some_iff.mp h
  rw [← e, List.set_getElem_self]

theorem at_fails : ∀ {ss : List Acc} {v : Json F}, Ordered v → (∀ w, atChain ss v ≠ .ok w) →
    ∃ p s q u e, ss = p ++ s :: q ∧ Reach v p u ∧ Lacks u s e ∧ atChain ss v = .throws e ∧
      ∀ f : Json F → Json F × Outcome T, atDo f ss v = (v, .throws e)
  | [], v, _, h => absurd rfl (h v)
  | .key k :: ss, v, ho, h => by
    cases v with
    | obj ms =>
      cases hl : lookup k ms with
      | none =>
        refine ⟨[], .key k, ss, _, _, rfl, .here _, .member (lookup_none_iff.mp hl), ?_, ?_⟩
        · simp [atChain, hl]
        · intro f; simp [atDo, hl]
      | some u =>
        have h' : ∀ w, atChain ss u ≠ .ok w := fun w hw => h w ((atChain_key ..).mpr ⟨_, _, rfl, hl, hw⟩)
        obtain ⟨p, s, q, u', e, h1, h2, h3, h4, h5⟩ := at_fails (ordered_lookup ho hl) h'
        refine ⟨.key k :: p, s, q, u', e, by rw [h1]; rfl, .key (lookup_mem hl) h2, h3, ?_, ?_⟩
        · simp [atChain, hl, h4]
        · intro f
          simp only [atDo, hl, h5 f]
          rw [setKey_same (by rw [Ordered] at ho; exact ho.1) hl]
    | _ =>
      refine ⟨[], .key k, ss, _, _, rfl, .here _, .noObject (fun ms => by simp), ?_, ?_⟩
      · simp [atChain]
      · intro f; simp [atDo]
  | .idx i :: ss, v, ho, h => by
    cases v with
    | arr xs =>
      cases hl : xs[i]? with
      | none =>
        refine ⟨[], .idx i, ss, _, _, rfl, .here _, .element (List.getElem?_eq_none_iff.mp hl), ?_, ?_⟩
        · simp [atChain, hl]
        · intro f; simp [atDo, hl]
      | some u =>
        have h' : ∀ w, atChain ss u ≠ .ok w := fun w hw => h w ((atChain_idx ..).mpr ⟨_, _, rfl, hl, hw⟩)
        obtain ⟨p, s, q, u', e, h1, h2, h3, h4, h5⟩ := at_fails (ordered_get ho hl) h'
        refine ⟨.idx i :: p, s, q, u', e, by rw [h1]; rfl, .idx hl h2, h3, ?_, ?_⟩
        · simp [atChain, hl, h4]
        · intro f
          simp only [atDo, hl, h5 f]
          rw [set_same hl]
    | _ =>
      refine ⟨[], .idx i, ss, _, _, rfl, .here _, .noArray (fun ms => by simp), ?_, ?_⟩
      · simp [atChain]
      · intro f; simp [atDo]

/-- an array filled up so that it has an element `i` -/
def padded (i : Nat) (xs : List (Json F)) : List (Json F) := xs ++ List.replicate (i + 1 - xs.length) .null

/-- no index is so large that there could not be such an array -/
def Small (ss : List Acc) : Prop := ∀ i, .idx i ∈ ss → i < maxSize

theorem fillTo_eq {i : Nat} (hi : i < maxSize) (xs : List (Json F)) : fillTo i xs = .ok (padded i xs) := by
  rw [fillTo, padded]
  by_cases h : xs.length ≤ i
  · have hm : maxSize < 2 ^ 64 := by decide
    have hc : (i - xs.length + 1) % 2 ^ 64 = i + 1 - xs.length := by
      rw [Nat.mod_eq_of_lt (by omega)]; omega
    rw [if_pos h]
    simp only [hc]
    rw [if_neg (by omega)]
  · rw [if_neg h, show i + 1 - xs.length = 0 by omega]
    simp

theorem padded_length (i : Nat) (xs : List (Json F)) : (padded i xs).length = max xs.length (i + 1) := by
  simp [padded]; omega

theorem padded_at (i n : Nat) (xs : List (Json F)) :
    (padded i xs)[n]? = if n < xs.length then xs[n]? else if n ≤ i then some .null else none := by
  rw [padded, List.getElem?_append]
  by_cases h : n < xs.length
  · simp [h]
  · simp only [h, if_false, List.getElem?_replicate]
    by_cases h2 : n ≤ i
    · rw [if_pos (by omega), if_pos h2]
    · rw [if_neg (by omega), if_neg h2]

theorem padded_self (i : Nat) (xs : List (Json F)) : (padded i xs)[i]? = some ((xs[i]?).getD .null) := by
  rw [padded_at]
  by_cases h : i < xs.length
  · simp [h]
  · simp [h]

theorem padded_same {i : Nat} {xs : List (Json F)} (h : i < xs.length) : padded i xs = xs := by
  rw [padded, show i + 1 - xs.length = 0 by omega]; simp

theorem index_key (f : Json F → Json F × Outcome T) {k : Bytes} {ss : List Acc} {v : Json F} {ms : List (Bytes × Json F)}
    (h : objOfNull v = .obj ms) : indexDo f (.key k :: ss) v =
      (.obj (setKey k (indexDo f ss ((lookup k ms).getD .null)).1 ms), (indexDo f ss ((lookup k ms).getD .null)).2) := by
  rw [indexDo.eq_def]
  simp only [h]

theorem index_idx (f : Json F → Json F × Outcome T) {i : Nat} {ss : List Acc} {v : Json F} {xs : List (Json F)}
    (h : arrOfNull v = .arr xs) (hi : i < maxSize ∨ i < xs.length) : indexDo f (.idx i :: ss) v =
      (.arr ((padded i xs).set i (indexDo f ss ((xs[i]?).getD .null)).1), (indexDo f ss ((xs[i]?).getD .null)).2) := by
  have hf : fillTo i xs = .ok (padded i xs) := by
    rcases hi with hi | hi
    · exact fillTo_eq hi xs
    · rw [fillTo, if_neg (by omega), padded_same hi]
  rw [indexDo.eq_def]
  simp only [h, hf, padded_self]

theorem obj_cases (v : Json F) : (∃ ms, objOfNull v = .obj ms ∧ (v = .obj ms ∨ v = .null ∧ ms = [])) ∨
    (v ≠ .null ∧ (∀ ms, v ≠ .obj ms) ∧ ∀ (f : Json F → Json F × Outcome T) k ss,
      indexDo f (.key k :: ss) v = (v, .throws "type_error.305")) := by
  cases v with
  | null => exact .inl ⟨[], rfl, .inr ⟨rfl, rfl⟩⟩
  | obj ms => exact .inl ⟨ms, rfl, .inl rfl⟩
  | _ => exact .inr ⟨by simp, by simp, fun f k ss => by simp [indexDo, objOfNull]⟩

theorem arr_cases (v : Json F) : (∃ xs, arrOfNull v = .arr xs ∧ (v = .arr xs ∨ v = .null ∧ xs = [])) ∨
    (v ≠ .null ∧ (∀ ms, v ≠ .arr ms) ∧ ∀ (f : Json F → Json F × Outcome T) k ss,
      indexDo f (.idx k :: ss) v = (v, .throws "type_error.305")) := by
  cases v with
  | null => exact .inl ⟨[], rfl, .inr ⟨rfl, rfl⟩⟩
  | arr xs => exact .inl ⟨xs, rfl, .inl rfl⟩
  | _ => exact .inr ⟨by simp, by simp, fun f k ss => by simp [indexDo, arrOfNull]⟩

theorem ordered_null : Ordered (.null : Json F) := by simp [Ordered]

theorem ordered_member {v : Json F} {ms : List (Bytes × Json F)} (ho : Ordered v) (h : v = .obj ms ∨ v = .null ∧ ms = [])
    (k : Bytes) : Ordered (.obj ms) ∧ Ordered ((lookup k ms).getD .null) := by
  have h1 : Ordered (.obj ms) := by
    rcases h with h | ⟨_, h⟩
    · rw [← h]; exact ho
    · rw [h]; simp [Ordered, OrderedM]
  refine ⟨h1, ?_⟩
  cases hl : lookup k ms with
  | none => exact ordered_null
  | some u => exact ordered_lookup h1 hl

theorem ordered_element {v : Json F} {xs : List (Json F)} (ho : Ordered v) (h : v = .arr xs ∨ v = .null ∧ xs = [])
    (i : Nat) : Ordered (.arr xs) ∧ Ordered ((xs[i]?).getD .null) := by
  have h1 : Ordered (.arr xs) := by
    rcases h with h | ⟨_, h⟩
    · rw [← h]; exact ho
    · rw [h]; simp [Ordered, OrderedL]
  refine ⟨h1, ?_⟩
  cases hl : xs[i]? with
  | none => exact ordered_null
  | some u => exact ordered_get h1 hl

theorem ordered_padded {xs : List (Json F)} {i : Nat} {w : Json F} (h : Ordered (.arr xs)) (hw : Ordered w) :
    Ordered (.arr ((padded i xs).set i w)) := by
  rw [Ordered, orderedL_iff] at h ⊢
  intro x hx
  rcases List.mem_or_eq_of_mem_set hx with hx | hx
  · rw [padded, List.mem_append, List.mem_replicate] at hx
    rcases hx with hx | ⟨_, hx⟩
    · exact h x hx
    · rw [hx]; exact ordered_null
  · rw [hx]; exact hw

theorem small_tail {s : Acc} {ss : List Acc} (h : Small (s :: ss)) : Small ss := fun i hi => h i (List.mem_cons_of_mem _ hi)

/-- where a chain is stopped -/
theorem index_out : ∀ {ss : List Acc} {v : Json F}, Ordered v → Small ss →
    ((∃ p s q u, ss = p ++ s :: q ∧ Reach v p u ∧ Clash u s) ∧
      ∀ f : Json F → Json F × Outcome T, indexDo f ss v = (v, .throws "type_error.305")) ∨
    ((¬ ∃ p s q u, ss = p ++ s :: q ∧ Reach v p u ∧ Clash u s) ∧
      ∃ w, ∀ f : Json F → Json F × Outcome T, (indexDo f ss v).2 = (f w).2)
  | [], v, _, _ => by
    refine .inr ⟨?_, v, fun f => rfl⟩
    rintro ⟨p, s, q, u, h, _⟩
    cases p <;> cases h
  | .key k :: ss, v, ho, hs => by
    rcases obj_cases (T := T) v with ⟨ms, hm, hv⟩ | ⟨h1, h2, h3⟩
    · obtain ⟨hom, how⟩ := ordered_member ho hv k
      rcases index_out how (small_tail hs) with ⟨⟨p, s, q, u, e, hr, hc⟩, hf⟩ | ⟨hn, w, hf⟩
      · cases hl : lookup k ms with
        | none =>
          rw [hl] at hr
          cases hr with
          | here => cases hc <;> exact absurd rfl ‹_›
        | some w =>
          have hv' : v = .obj ms := by
            rcases hv with hv | ⟨_, hv⟩
            · exact hv
            · rw [hv, lookup_nil] at hl; cases hl
          rw [hl] at hr hf
          refine .inl ⟨⟨.key k :: p, s, q, u, by rw [e]; rfl, ?_, hc⟩, fun f => ?_⟩
          · rw [hv']; exact .key (lookup_mem hl) hr
          · rw [index_key f hm, hl, hf f]
            simp only [Option.getD_some]
            rw [setKey_same (by rw [Ordered] at hom; exact hom.1) hl, hv']
      · refine .inr ⟨?_, w, fun f => by rw [index_key f hm]; exact hf f⟩
        rintro ⟨p, s, q, u, e, hr, hc⟩
        cases p with
        | nil =>
          cases hr
          cases e
          cases hc with
          | noObject c1 c2 =>
            rcases hv with hv | ⟨hv, _⟩
            · exact c2 _ hv
            · exact c1 hv
        | cons a p =>
          cases e
          cases hr with
          | key hk hr =>
            rcases hv with hv | ⟨hv, _⟩
            · cases hv
              have hl := (lookup_mem_iff (by rw [Ordered] at hom; exact hom.1)).mpr hk
              exact hn ⟨p, s, q, u, rfl, by rw [hl]; exact hr, hc⟩
            · cases hv
    · exact .inl ⟨⟨[], .key k, ss, v, rfl, .here _, .noObject h1 h2⟩, fun f => h3 f k ss⟩
  | .idx i :: ss, v, ho, hs => by
    rcases arr_cases (T := T) v with ⟨xs, hm, hv⟩ | ⟨h1, h2, h3⟩
    · obtain ⟨hom, how⟩ := ordered_element ho hv i
      have hi := hs i List.mem_cons_self
      rcases index_out how (small_tail hs) with ⟨⟨p, s, q, u, e, hr, hc⟩, hf⟩ | ⟨hn, w, hf⟩
      · cases hl : xs[i]? with
        | none =>
          rw [hl] at hr
          cases hr with
          | here => cases hc <;> exact absurd rfl ‹_›
        | some w =>
          have hv' : v = .arr xs := by
            rcases hv with hv | ⟨_, hv⟩
            · exact hv
            · rw [hv] at hl; simp at hl
          rw [hl] at hr hf
          refine .inl ⟨⟨.idx i :: p, s, q, u, by rw [e]; rfl, ?_, hc⟩, fun f => ?_⟩
          · rw [hv']; exact .idx hl hr
          · rw [index_idx f hm (.inl hi), hl, hf f]
            simp only [Option.getD_some]
            rw [padded_same (List.getElem?_eq_some_iff.mp hl).1, set_same hl, hv']
      · refine .inr ⟨?_, w, fun f => by rw [index_idx f hm (.inl hi)]; exact hf f⟩
        rintro ⟨p, s, q, u, e, hr, hc⟩
        cases p with
        | nil =>
          cases hr
          cases e
          cases hc with
          | noArray c1 c2 =>
            rcases hv with hv | ⟨hv, _⟩
            · exact c2 _ hv
            · exact c1 hv
        | cons a p =>
          cases e
          cases hr with
          | idx hk hr =>
            rcases hv with hv | ⟨hv, _⟩
            · cases hv
              exact hn ⟨p, s, q, u, rfl, by rw [hk]; exact hr, hc⟩
            · cases hv
    · exact .inl ⟨⟨[], .idx i, ss, v, rfl, .here _, .noArray h1 h2⟩, fun f => h3 f i ss⟩

theorem at_null (q : List Acc) (w : Json F) (h : atChain q (.null : Json F) = .ok w) : q = [] ∧ w = .null := by
  cases q with
  | nil => rw [atChain] at h; cases h; exact ⟨rfl, rfl⟩
  | cons s q => cases s <;> simp [atChain] at h

/-- what an assignment does -/
theorem set_at : ∀ {ss : List Acc} {v v' x : Json F}, Ordered v → Ordered x → Small ss →
    indexDo (assignTo x) ss v = (v', .ok ()) → Ordered v' ∧ atChain ss v' = .ok x ∧
    ∀ q, ¬ q <+: ss → ¬ ss <+: q →
      (∀ w, atChain q v = .ok w → atChain q v' = .ok w) ∧
      (∀ w, atChain q v' = .ok w → atChain q v = .ok w ∨
        (w = .null ∧ (∀ u, atChain q v ≠ .ok u) ∧ ∃ p n i r, q = p ++ [.idx n] ∧ ss = p ++ .idx i :: r ∧ n < i))
  | [], v, v', x, ho, hx, hs, h => by
    rw [indexDo, assignTo] at h
    cases h
    exact ⟨hx, rfl, fun q h1 h2 => absurd List.nil_prefix h2⟩
  | .key k :: ss, v, v', x, ho, hx, hs, h => by
    rcases obj_cases (T := Unit) v with ⟨ms, hm, hv⟩ | ⟨h1, h2, h3⟩
    · obtain ⟨hom, how⟩ := ordered_member ho hv k
      rw [index_key _ hm] at h
      obtain ⟨hv', ht⟩ := Prod.mk.inj h
      obtain ⟨ih1, ih2, ih3⟩ := set_at how hx (small_tail hs) (Prod.ext rfl ht)
      subst hv'
      refine ⟨ordered_setKey hom ih1, (atChain_key ..).mpr ⟨_, _, rfl, lookup_setKey .., ih2⟩, ?_⟩
      intro q hq1 hq2
      cases q with
      | nil => exact absurd List.nil_prefix hq1
      | cons s q =>
        cases s with
        | idx n =>
          refine ⟨fun w hw => ?_, fun w hw => ?_⟩
          · obtain ⟨xs, u, e, _⟩ := (atChain_idx ..).mp hw
            rcases hv with hv | ⟨hv, _⟩ <;> (rw [hv] at e; cases e)
          · obtain ⟨xs, u, e, _⟩ := (atChain_idx ..).mp hw
            cases e
        | key k' =>
          by_cases hk : k' = k
          · subst hk
            have hp1 : ¬ q <+: ss := fun hp => hq1 (List.prefix_cons_inj _ |>.mpr hp)
            have hp2 : ¬ ss <+: q := fun hp => hq2 (List.prefix_cons_inj _ |>.mpr hp)
            have hqn : q ≠ [] := fun e => hp1 (e ▸ List.nil_prefix)
            obtain ⟨i1, i2⟩ := ih3 q hp1 hp2
            refine ⟨fun w hw => ?_, fun w hw => ?_⟩
            · obtain ⟨ms', u, e, hl, hw⟩ := (atChain_key ..).mp hw
              rcases hv with hv | ⟨hv, _⟩
              · rw [hv] at e
                cases e
                rw [hl] at i1
                refine (atChain_key ..).mpr ⟨_, _, rfl, lookup_setKey .., ?_⟩
                have := i1 w hw
                simp only [hl] at this ⊢
                exact this
              · rw [hv] at e; cases e
            · obtain ⟨ms', u, e, hl, hw⟩ := (atChain_key ..).mp hw
              cases e
              rw [lookup_setKey] at hl
              cases hl
              have back : ∀ u, atChain (.key k' :: q) v = .ok u → atChain q ((lookup k' ms).getD .null) = .ok u := by
                intro u hu
                obtain ⟨ms', u', e, hl, hw⟩ := (atChain_key ..).mp hu
                rcases hv with hv | ⟨hv, _⟩
                · rw [hv] at e; cases e; rw [hl]; exact hw
                · rw [hv] at e; cases e
              rcases i2 w hw with h4 | ⟨h4, h5, p, n, i, r, h6, h7, h8⟩
              · cases hl : lookup k' ms with
                | none =>
                  rw [hl] at h4
                  exact absurd (at_null q w h4).1 hqn
                | some u =>
                  rw [hl] at h4
                  have hv' : v = .obj ms := by
                    rcases hv with hv | ⟨_, hv⟩
                    · exact hv
                    · rw [hv, lookup_nil] at hl; cases hl
                  exact .inl ((atChain_key ..).mpr ⟨_, _, hv', hl, h4⟩)
              · exact .inr ⟨h4, fun u hu => h5 u (back u hu), .key k' :: p, n, i, r, by rw [h6]; rfl, by rw [h7]; rfl, h8⟩
          · refine ⟨fun w hw => ?_, fun w hw => ?_⟩
            · obtain ⟨ms', u, e, hl, hw⟩ := (atChain_key ..).mp hw
              rcases hv with hv | ⟨hv, _⟩
              · rw [hv] at e
                cases e
                exact (atChain_key ..).mpr ⟨_, _, rfl, by rw [lookup_setKey_ne hk]; exact hl, hw⟩
              · rw [hv] at e; cases e
            · obtain ⟨ms', u, e, hl, hw⟩ := (atChain_key ..).mp hw
              cases e
              rw [lookup_setKey_ne hk] at hl
              have hv' : v = .obj ms := by
                rcases hv with hv | ⟨_, hv⟩
                · exact hv
                · rw [hv, lookup_nil] at hl; cases hl
              exact .inl ((atChain_key ..).mpr ⟨_, _, hv', hl, hw⟩)
    · rw [h3] at h; cases h
  | .idx i :: ss, v, v', x, ho, hx, hs, h => by
    rcases arr_cases (T := Unit) v with ⟨xs, hm, hv⟩ | ⟨h1, h2, h3⟩
    · obtain ⟨hom, how⟩ := ordered_element ho hv i
      rw [index_idx _ hm (.inl (hs i List.mem_cons_self))] at h
      obtain ⟨hv', ht⟩ := Prod.mk.inj h
      obtain ⟨ih1, ih2, ih3⟩ := set_at how hx (small_tail hs) (Prod.ext rfl ht)
      subst hv'
      have hlen : i < (padded i xs).length := by rw [padded_length]; omega
      have hself : ∀ w : Json F, ((padded i xs).set i w)[i]? = some w := fun w => by
        rw [List.getElem?_set_self hlen]
      refine ⟨ordered_padded hom ih1, (atChain_idx ..).mpr ⟨_, _, rfl, hself _, ih2⟩, ?_⟩
      intro q hq1 hq2
      cases q with
      | nil => exact absurd List.nil_prefix hq1
      | cons s q =>
        cases s with
        | key n =>
          refine ⟨fun w hw => ?_, fun w hw => ?_⟩
          · obtain ⟨xs, u, e, _⟩ := (atChain_key ..).mp hw
            rcases hv with hv | ⟨hv, _⟩ <;> (rw [hv] at e; cases e)
          · obtain ⟨xs, u, e, _⟩ := (atChain_key ..).mp hw
            cases e
        | idx n =>
          by_cases hk : n = i
          · subst hk
            have hp1 : ¬ q <+: ss := fun hp => hq1 (List.prefix_cons_inj _ |>.mpr hp)
            have hp2 : ¬ ss <+: q := fun hp => hq2 (List.prefix_cons_inj _ |>.mpr hp)
            have hqn : q ≠ [] := fun e => hp1 (e ▸ List.nil_prefix)
            obtain ⟨i1, i2⟩ := ih3 q hp1 hp2
            refine ⟨fun w hw => ?_, fun w hw => ?_⟩
            · obtain ⟨ms', u, e, hl, hw⟩ := (atChain_idx ..).mp hw
              rcases hv with hv | ⟨hv, _⟩
              · rw [hv] at e
                cases e
                refine (atChain_idx ..).mpr ⟨_, _, rfl, hself _, ?_⟩
                exact i1 w (by rw [hl]; exact hw)
              · rw [hv] at e; cases e
            · obtain ⟨ms', u, e, hl, hw⟩ := (atChain_idx ..).mp hw
              cases e
              rw [hself] at hl
              cases hl
              have back : ∀ u, atChain (.idx n :: q) v = .ok u → atChain q ((xs[n]?).getD .null) = .ok u := by
                intro u hu
                obtain ⟨ms', u', e, hl, hw⟩ := (atChain_idx ..).mp hu
                rcases hv with hv | ⟨hv, _⟩
                · rw [hv] at e; cases e; rw [hl]; exact hw
                · rw [hv] at e; cases e
              rcases i2 w hw with h4 | ⟨h4, h5, p, m, i, r, h6, h7, h8⟩
              · cases hl : xs[n]? with
                | none =>
                  rw [hl] at h4
                  exact absurd (at_null q w h4).1 hqn
                | some u =>
                  rw [hl] at h4
                  have hv' : v = .arr xs := by
                    rcases hv with hv | ⟨_, hv⟩
                    · exact hv
                    · rw [hv] at hl; simp at hl
                  exact .inl ((atChain_idx ..).mpr ⟨_, _, hv', hl, h4⟩)
              · exact .inr ⟨h4, fun u hu => h5 u (back u hu), .idx n :: p, m, i, r, by rw [h6]; rfl, by rw [h7]; rfl, h8⟩
          · have hne : ∀ w : Json F, ((padded i xs).set i w)[n]? =
                if n < xs.length then xs[n]? else if n ≤ i then some .null else none := fun w => by
              rw [List.getElem?_set_ne (Ne.symm hk), padded_at]
            refine ⟨fun w hw => ?_, fun w hw => ?_⟩
            · obtain ⟨ms', u, e, hl, hw⟩ := (atChain_idx ..).mp hw
              rcases hv with hv | ⟨hv, _⟩
              · rw [hv] at e
                cases e
                exact (atChain_idx ..).mpr ⟨_, _, rfl, by
                  rw [hne, if_pos (List.getElem?_eq_some_iff.mp hl).1]; exact hl, hw⟩
              · rw [hv] at e; cases e
            · obtain ⟨ms', u, e, hl, hw⟩ := (atChain_idx ..).mp hw
              cases e
              rw [hne] at hl
              by_cases hn : n < xs.length
              · rw [if_pos hn] at hl
                have hv' : v = .arr xs := by
                  rcases hv with hv | ⟨_, hv⟩
                  · exact hv
                  · rw [hv] at hl; simp at hl
                exact .inl ((atChain_idx ..).mpr ⟨_, _, hv', hl, hw⟩)
              · rw [if_neg hn] at hl
                by_cases hi : n ≤ i
                · rw [if_pos hi] at hl
                  cases hl
                  obtain ⟨e1, e2⟩ := at_null q w hw
                  refine .inr ⟨e2, fun u hu => ?_, [], n, i, ss, by rw [e1]; rfl, rfl, by omega⟩
                  obtain ⟨ms', u', e, hl, hw⟩ := (atChain_idx ..).mp hu
                  rcases hv with hv | ⟨hv, _⟩
                  · rw [hv] at e
                    cases e
                    exact hn (List.getElem?_eq_some_iff.mp hl).1
                  · rw [hv] at e; cases e
                · rw [if_neg hi] at hl; cases hl
    · rw [h3] at h; cases h

theorem read_same : ∀ {ss : List Acc} {v w : Json F}, Ordered v → atChain ss v = .ok w →
    constChain ss v = .ok w ∧ ∀ f : Json F → Json F × Outcome T, indexDo f ss v = atDo f ss v ∧
      (f w = (w, (f w).2) → indexDo f ss v = (v, (f w).2))
  | [], v, w, _, h => by
    rw [atChain] at h
    cases h
    exact ⟨rfl, fun f => ⟨rfl, fun h => h⟩⟩
  | .key k :: ss, v, w, ho, h => by
    obtain ⟨ms, u, rfl, hl, hw⟩ := (atChain_key ..).mp h
    obtain ⟨h1, h2⟩ := read_same (ordered_lookup ho hl) hw
    refine ⟨by simp [constChain, hl, h1], fun f => ?_⟩
    have e : indexDo f (.key k :: ss) (.obj ms) = _ := index_key f (v := .obj ms) (ms := ms) rfl
    rw [e, hl]
    simp only [Option.getD_some]
    refine ⟨by simp [atDo, hl, (h2 f).1], fun hf => ?_⟩
    rw [(h2 f).2 hf, setKey_same (by rw [Ordered] at ho; exact ho.1) hl]
  | .idx i :: ss, v, w, ho, h => by
    obtain ⟨xs, u, rfl, hl, hw⟩ := (atChain_idx ..).mp h
    obtain ⟨h1, h2⟩ := read_same (ordered_get ho hl) hw
    refine ⟨by simp [constChain, hl, h1], fun f => ?_⟩
    have hi := (List.getElem?_eq_some_iff.mp hl).1
    have e : indexDo f (.idx i :: ss) (.arr xs) = _ := index_idx f (v := .arr xs) (xs := xs) rfl (.inr hi)
    rw [e, hl, padded_same hi]
    simp only [Option.getD_some]
    refine ⟨by simp [atDo, hl, (h2 f).1], fun hf => ?_⟩
    rw [(h2 f).2 hf, set_same hl]

/-! ## The theorems -/

/-- `{"a": [true, {"b": null}], "c": 1}` -/
def exTree : Json Nat := .obj [([97], .arr [.bool true, .obj [([98], .null)]]), ([99], .uint 1)]

theorem exTree_ordered : Ordered exTree := by
  simp [exTree, Ordered, OrderedM, OrderedL]
  decide

/-- **C153** (what holds) A chain of `at` gives the value that the keys and indices lead to; if there is none, the
documented exception for the first step without an element is thrown, and what would have been done through the
reference is not done: nothing is changed. -/
theorem C153_at_iff (ss : List Acc) (v : Json F) (ho : Ordered v) :
    (∀ w, atChain ss v = .ok w ↔ Reach v ss w) ∧
    ((¬ ∃ w, Reach v ss w) → ∃ p s q u e, ss = p ++ s :: q ∧ Reach v p u ∧ Lacks u s e ∧ atChain ss v = .throws e ∧
      ∀ f : Json F → Json F × Outcome T, atDo f ss v = (v, .throws e)) :=
  ⟨fun _ => (reach_iff ho).symm, fun h => at_fails ho fun w hw => h ⟨w, (reach_iff ho).mpr hw⟩⟩

example : Ordered exTree ∧ Reach exTree [.key [97], .idx 0] (.bool true) ∧
    atChain [.key [97], .idx 2, .key [98]] exTree = .throws "out_of_range.401" ∧
    atChain [.key [98], .idx 2] exTree = .throws "out_of_range.403" ∧
    atChain [.key [99], .idx 2] exTree = .throws "type_error.304" :=
  ⟨exTree_ordered, .key (by simp; rfl) (.idx rfl (.here _)), rfl, rfl, rfl⟩

/-- **C153** (what holds) Where there is a value, `operator[]` gives the same reference as `at`, for constant values
too, and reading it changes nothing. -/
theorem C153_read (ss : List Acc) (v w : Json F) (ho : Ordered v) (h : Reach v ss w) :
    constChain ss v = .ok w ∧ indexDo readFrom ss v = (v, .ok w) ∧
    ∀ f : Json F → Json F × Outcome T, indexDo f ss v = atDo f ss v := by
  have h' := (reach_iff ho).mp h
  exact ⟨(read_same (T := T) ho h').1, ((read_same ho h').2 readFrom).2 rfl, fun f => ((read_same ho h').2 f).1⟩

example : Reach exTree [.key [97], .idx 1, .key [98]] .null :=
  (reach_iff exTree_ordered).mpr rfl

/-- **C153** (what holds) `j[…][…] = x` assigns unless one of the steps meets a value that is neither null nor of the
type the step is for; then `type_error.305` is thrown and nothing is changed. -/
theorem C153_set_iff (ss : List Acc) (v x : Json F) (ho : Ordered v) (hs : Small ss) :
    ((indexDo (assignTo x) ss v).2 = .ok () ↔ ¬ ∃ p s q u, ss = p ++ s :: q ∧ Reach v p u ∧ Clash u s) ∧
    ((∃ p s q u, ss = p ++ s :: q ∧ Reach v p u ∧ Clash u s) →
      indexDo (assignTo x) ss v = (v, .throws "type_error.305")) := by
  rcases index_out (T := Unit) ho hs with ⟨h1, h2⟩ | ⟨h1, w, h2⟩
  · rw [h2]
    exact ⟨⟨fun h => (nomatch h), fun h => absurd h1 h⟩, fun _ => rfl⟩
  · exact ⟨⟨fun _ => h1, fun _ => h2 (assignTo x)⟩, fun h => absurd h h1⟩

/-- `j["a"][0]["x"] = 7`: there is a boolean in the way -/
example : [Acc.key [97], .idx 0, .key [120]] = [.key [97], .idx 0] ++ .key [120] :: [] ∧
    Reach exTree [.key [97], .idx 0] (.bool true) ∧ Clash (.bool true : Json Nat) (.key [120]) ∧
    Small [.key [97], .idx 0, .key [120]] :=
  ⟨rfl, (reach_iff exTree_ordered).mpr rfl, .noObject (by simp) (by simp),
    fun i hi => by simp at hi; subst hi; decide⟩

/-- **C153** (what holds) After `j[…][…] = x` the keys and indices lead to `x`; all values they do not lead to or
through are as before, and there are no new ones but the nulls an array is filled up with before a new element. -/
theorem C153_set (ss : List Acc) (v v' x : Json F) (ho : Ordered v) (hx : Ordered x) (hs : Small ss)
    (h : indexDo (assignTo x) ss v = (v', .ok ())) :
    Ordered v' ∧ (∀ w, Reach v' ss w ↔ w = x) ∧
    ∀ q, ¬ q <+: ss → ¬ ss <+: q → (∀ w, Reach v q w → Reach v' q w) ∧
      (∀ w, Reach v' q w → Reach v q w ∨ (w = .null ∧ (¬ ∃ u, Reach v q u) ∧
        ∃ p n i r, q = p ++ [.idx n] ∧ ss = p ++ .idx i :: r ∧ n < i)) := by
  obtain ⟨h1, h2, h3⟩ := set_at ho hx hs h
  refine ⟨h1, fun w => ?_, fun q hq1 hq2 => ⟨fun w hw => ?_, fun w hw => ?_⟩⟩
  · rw [reach_iff h1, h2]
    exact ⟨fun e => by cases e; rfl, fun e => by rw [e]⟩
  · exact (reach_iff h1).mpr ((h3 q hq1 hq2).1 w ((reach_iff ho).mp hw))
  · rcases (h3 q hq1 hq2).2 w ((reach_iff h1).mp hw) with h4 | ⟨h4, h5, h6⟩
    · exact .inl ((reach_iff ho).mpr h4)
    · exact .inr ⟨h4, fun ⟨u, hu⟩ => h5 u ((reach_iff ho).mp hu), h6⟩

/-- `j["a"][1]["b"][2] = 7`: null becomes an array of three elements -/
example : indexDo (assignTo (.uint 7)) [.key [97], .idx 1, .key [98], .idx 2] exTree =
    (.obj [([97], .arr [.bool true, .obj [([98], .arr [.null, .null, .uint 7])]]), ([99], .uint 1)], .ok ()) ∧
    ¬ [Acc.key [97], .idx 1, .key [98], .idx 0] <+: [.key [97], .idx 1, .key [98], .idx 2] ∧
    ¬ [Acc.key [99]] <+: [.key [97], .idx 1, .key [98], .idx 2] := by
  refine ⟨by rfl, by decide, by decide⟩

/-- **C153** (what holds) An element behind the end that is assigned to is the last one afterwards, with nulls before
it. -/
theorem C153_grow (xs : List (Json F)) (i : Nat) (x : Json F) (hi : xs.length ≤ i) (hm : i < maxSize) :
    indexDo (assignTo x) [.idx i] (.arr xs) = (.arr (xs ++ List.replicate (i - xs.length) .null ++ [x]), .ok ()) := by
  have e : indexDo (assignTo x) [.idx i] (.arr xs) = _ := index_idx (assignTo x) (v := .arr xs) (xs := xs) rfl (.inl hm)
  rw [e]
  have e2 : padded i xs = (xs ++ List.replicate (i - xs.length) .null) ++ [.null] := by
    rw [padded, show i + 1 - xs.length = (i - xs.length) + 1 by omega, List.replicate_succ', List.append_assoc]
  have e3 : (xs ++ List.replicate (i - xs.length) (Json.null : Json F)).length = i := by simp; omega
  rw [e2, List.set_append_right _ _ (by omega), e3]
  simp [indexDo, assignTo]

example : indexDo (assignTo (.bool true)) [.idx 3] (.arr [.uint 1] : Json Nat) = (.arr [.uint 1, .null, .null, .bool true], .ok ()) :=
  C153_grow [.uint 1] 3 (.bool true) (by decide) (by decide)

/-- **C153** (what does not hold) that reading does not change a value: `operator[]` of a value that is not constant
makes a null of what is not there, a member or elements up to the one asked for, and an object or an array of null. -/
theorem C153_read_fails (ms : List (Bytes × Json F)) (k : Bytes) (hk : ∀ x ∈ ms, x.1 ≠ k) (xs : List (Json F)) (i : Nat)
    (hi : xs.length ≤ i) (hm : i < maxSize) :
    (∃ ms', indexDo readFrom [.key k] (.obj ms) = (.obj ms', .ok .null) ∧ (k, .null) ∈ ms' ∧ .obj ms' ≠ (.obj ms : Json F)) ∧
    (∃ ys, indexDo readFrom [.idx i] (.arr xs) = (.arr ys, .ok .null) ∧ ys.length = i + 1 ∧ xs.length < i + 1) ∧
    indexDo readFrom [.key k] (.null : Json F) = (.obj [(k, .null)], .ok .null) := by
  refine ⟨⟨setKey k .null ms, ?_, lookup_mem (lookup_setKey ..), ?_⟩, ⟨padded i xs, ?_, ?_, by omega⟩, rfl⟩
  · have e : indexDo readFrom [.key k] (.obj ms) = _ := index_key readFrom (v := .obj ms) (ms := ms) rfl
    rw [e, lookup_none_iff.mpr hk]
    rfl
  · intro e
    have h1 := Json.obj.inj e
    have h2 := lookup_setKey k (Json.null : Json F) ms
    rw [h1, lookup_none_iff.mpr hk] at h2
    cases h2
  · have e : indexDo readFrom [.idx i] (.arr xs) = _ := index_idx readFrom (v := .arr xs) (xs := xs) rfl (.inl hm)
    rw [e, List.getElem?_eq_none hi]
    simp only [Option.getD_none, indexDo, readFrom]
    rw [set_same]
    rw [padded_self, List.getElem?_eq_none hi]
    rfl
  · rw [padded_length]; omega

example : ∃ ms', indexDo readFrom [.key [98]] (.obj [([97], .uint 1)] : Json Nat) = (.obj ms', .ok .null) ∧ ([98], .null) ∈ ms' ∧
    (.obj ms' : Json Nat) ≠ .obj [([97], .uint 1)] :=
  (C153_read_fails [([97], .uint 1)] [98] (by simp) [] 0 (by decide) (by decide)).1

theorem const_fails : ∀ {ss : List Acc} {v : Json F}, Ordered v → (∀ w, atChain ss v ≠ .ok w) →
    ∃ p s q u e, ss = p ++ s :: q ∧ Reach v p u ∧ Lacks u s e ∧
      (e = "out_of_range.403" ∧ constChain ss v = .assertFail ∨ e = "out_of_range.401" ∧ constChain ss v = .ub ∨
        e = "type_error.304" ∧ constChain ss v = .throws "type_error.305")
  | [], v, _, h => absurd rfl (h v)
  | .key k :: ss, v, ho, h => by
    cases v with
    | obj ms =>
      cases hl : lookup k ms with
      | none =>
        exact ⟨[], .key k, ss, _, _, rfl, .here _, .member (lookup_none_iff.mp hl), .inl ⟨rfl, by simp [constChain, hl]⟩⟩
      | some u =>
        have h' : ∀ w, atChain ss u ≠ .ok w := fun w hw => h w ((atChain_key ..).mpr ⟨_, _, rfl, hl, hw⟩)
        obtain ⟨p, s, q, u', e, h1, h2, h3, h4⟩ := const_fails (ordered_lookup ho hl) h'
        refine ⟨.key k :: p, s, q, u', e, by rw [h1]; rfl, .key (lookup_mem hl) h2, h3, ?_⟩
        rw [show constChain (.key k :: ss) (.obj ms) = constChain ss u by simp [constChain, hl]]
        exact h4
    | _ =>
      exact ⟨[], .key k, ss, _, _, rfl, .here _, .noObject (fun ms => by simp), .inr (.inr ⟨rfl, by simp [constChain]⟩)⟩
  | .idx i :: ss, v, ho, h => by
    cases v with
    | arr xs =>
      cases hl : xs[i]? with
      | none =>
        exact ⟨[], .idx i, ss, _, _, rfl, .here _, .element (List.getElem?_eq_none_iff.mp hl),
          .inr (.inl ⟨rfl, by simp [constChain, hl]⟩)⟩
      | some u =>
        have h' : ∀ w, atChain ss u ≠ .ok w := fun w hw => h w ((atChain_idx ..).mpr ⟨_, _, rfl, hl, hw⟩)
        obtain ⟨p, s, q, u', e, h1, h2, h3, h4⟩ := const_fails (ordered_get ho hl) h'
        refine ⟨.idx i :: p, s, q, u', e, by rw [h1]; rfl, .idx hl h2, h3, ?_⟩
        rw [show constChain (.idx i :: ss) (.arr xs) = constChain ss u by simp [constChain, hl]]
        exact h4
    | _ =>
      exact ⟨[], .idx i, ss, _, _, rfl, .here _, .noArray (fun ms => by simp), .inr (.inr ⟨rfl, by simp [constChain]⟩)⟩

/-- **C153** (what does not hold) that `operator[]` of a constant value is defined for what is not there: at the first
step without an element, a member that is not there violates an assertion, and an element behind the end is undefined
behaviour; only a value of the wrong type is refused, with `type_error.305`. -/
theorem C153_const_fails (ss : List Acc) (v : Json F) (ho : Ordered v) (h : ¬ ∃ w, Reach v ss w) :
    ∃ p s q u e, ss = p ++ s :: q ∧ Reach v p u ∧ Lacks u s e ∧
      (e = "out_of_range.403" ∧ constChain ss v = .assertFail ∨ e = "out_of_range.401" ∧ constChain ss v = .ub ∨
        e = "type_error.304" ∧ constChain ss v = .throws "type_error.305") :=
  const_fails ho fun w hw => h ⟨w, (reach_iff ho).mpr hw⟩

example : constChain [.key [98], .idx 2] exTree = .assertFail ∧ constChain [.key [97], .idx 2] exTree = .ub ∧
    constChain [.key [99], .idx 0] exTree = .throws "type_error.305" := ⟨rfl, rfl, rfl⟩

/-- **C153** (what does not hold) that an assignment that is refused changes nothing, for all indices: with one of
2^59 - 1 or more `length_error` is thrown, and null is then an empty array; and that an assignment is defined or
refused: with the index 2^64 - 1 it is undefined behaviour. -/
theorem C153_length_fails (i : Nat) (hi : maxSize ≤ i) (hi' : i < 2 ^ 64 - 1) (x : Json F) (ss : List Acc) :
    indexDo (assignTo x) (.idx i :: ss) (.null : Json F) = (.arr [], .throws "length_error") ∧
    indexDo (assignTo x) (.idx (2 ^ 64 - 1) :: ss) (.null : Json F) = (.arr [], .ub) := by
  constructor
  · rw [indexDo.eq_def]
    have e : fillTo i ([] : List (Json F)) = .throws "length_error" := by
      rw [fillTo, if_pos (by simp)]
      simp only [List.length_nil, Nat.sub_zero]
      rw [Nat.mod_eq_of_lt (by omega), if_pos (by omega)]
    simp only [arrOfNull, e]
  · rw [indexDo.eq_def]
    have e : fillTo (2 ^ 64 - 1) ([] : List (Json F)) = .ok [] := by
      rw [fillTo, if_pos (by simp)]
      have hz : (2 ^ 64 - 1 - ([] : List (Json F)).length + 1) % 2 ^ 64 = 0 := by simp
      simp only [hz]
      rw [if_neg (by simp)]
      rfl
    simp only [arrOfNull, e]
    simp

/-- `json j; j[1ull << 60] = 7;` -/
example : indexDo (assignTo (.uint 7)) [.idx (2 ^ 60)] (.null : Json Nat) = (.arr [], .throws "length_error") :=
  (C153_length_fails (2 ^ 60) (by decide) (by decide) (.uint 7) []).1

end Verif.Json
