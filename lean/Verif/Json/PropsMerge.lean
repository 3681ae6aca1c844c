import Verif.Json.PatchLemmas
import Verif.Json.PropsPointer

/-!
# Merge patches (C123)
-/

namespace Verif.Json
open Spec

variable {F : Type}

namespace Spec

/-- the members of a value, none if it is no object -/
def members : Json F → List (Bytes × Json F)
  | .obj ms => ms
  | _ => []

/-- the value after a merge patch by RFC 7396, as a relation of the value before, the patch and the value
after: for an object the members after are told one by one, without a loop over the patch; `f` gives the
new values -/
inductive Merged : Json F → Json F → Json F → Prop
  | replaced {v p : Json F} : (∀ ps, p ≠ .obj ps) → Merged v p p
  | merged {v : Json F} {ps ns : List (Bytes × Json F)} (f : Bytes → Json F) :
      ns.Pairwise (fun a b => a.1 < b.1) →
      (∀ k, (∀ p, (k, p) ∉ ps) → ∀ w, (k, w) ∈ ns ↔ (k, w) ∈ members v) →
      (∀ k, (k, .null) ∈ ps → ∀ w, (k, w) ∉ ns) →
      (∀ k p, (k, p) ∈ ps → p ≠ .null → (k, f k) ∈ ns) →
      (∀ k p w, (k, p) ∈ ps → p ≠ .null → (k, w) ∈ members v → Merged w p (f k)) →
      (∀ k p, (k, p) ∈ ps → p ≠ .null → (∀ w, (k, w) ∉ members v) → Merged .null p (f k)) →
      Merged v (.obj ps) (.obj ns)

end Spec

theorem mergePatch_obj (v : Json F) (ps : List (Bytes × Json F)) :
    mergePatch v (.obj ps) = .obj (mergeLoop (members v) ps) := by
  cases v <;> rw [mergePatch] <;> first | rfl | simp [members]

theorem mergePatch_other (v : Json F) {p : Json F} (h : ∀ ps, p ≠ .obj ps) : mergePatch v p = p := by
  cases p <;> first | exact absurd rfl (h _) | simp [mergePatch]

theorem mergeLoop_null (ms : List (Bytes × Json F)) (k : Bytes) (ps : List (Bytes × Json F)) :
    mergeLoop ms ((k, .null) :: ps) = mergeLoop (eraseKey k ms) ps := by rw [mergeLoop]

theorem mergeLoop_value (ms : List (Bytes × Json F)) (k : Bytes) {p : Json F} (h : p ≠ .null)
    (ps : List (Bytes × Json F)) :
    mergeLoop ms ((k, p) :: ps) = mergeLoop (setKey k (mergePatch ((lookup k ms).getD .null) p) ms) ps := by
  cases p <;> first | exact absurd rfl h | simp [mergeLoop]

theorem setKey_sub {k : Bytes} {v : Json F} {x : Bytes × Json F} : ∀ {ms : List (Bytes × Json F)},
    x ∈ setKey k v ms → x = (k, v) ∨ x ∈ ms
  | [], h => by rw [setKey] at h; exact .inl (List.mem_singleton.mp h)
  | (l, w) :: ms, h => by
    rw [setKey_cons] at h
    split at h
    · exact List.mem_cons.mp h
    split at h
    · rcases List.mem_cons.mp h with h | h
      · exact .inl h
      · exact .inr (List.mem_cons_of_mem _ h)
    · rcases List.mem_cons.mp h with h | h
      · exact .inr (h ▸ List.mem_cons_self)
      · exact (setKey_sub h).imp id (List.mem_cons_of_mem _)

theorem sorted_mergeLoop : ∀ (ps : List (Bytes × Json F)) {ms : List (Bytes × Json F)}, SortedM ms → SortedM (mergeLoop ms ps)
  | [], ms, h => by rw [mergeLoop]; exact h
  | (k, p) :: ps, ms, h => by
    by_cases hp : p = .null
    · rw [hp, mergeLoop_null]; exact sorted_mergeLoop ps (sorted_eraseKey h)
    · rw [mergeLoop_value _ _ hp]; exact sorted_mergeLoop ps (sorted_setKey h)

theorem lookup_tail {k : Bytes} {p : Json F} {ps : List (Bytes × Json F)} (h : SortedM ((k, p) :: ps)) :
    lookup k ps = none := by
  rw [lookup_none_iff]
  intro x hx hx'
  have := (List.pairwise_cons.mp h).1 x hx
  simp only at this
  rw [hx'] at this
  exact key_irrefl _ this

theorem lookup_mergeLoop {k : Bytes} : ∀ (ps : List (Bytes × Json F)) {ms : List (Bytes × Json F)}, SortedM ps → SortedM ms →
    (lookup k ps = none → lookup k (mergeLoop ms ps) = lookup k ms) ∧
    (lookup k ps = some .null → lookup k (mergeLoop ms ps) = none) ∧
    ∀ p, lookup k ps = some p → p ≠ .null →
      lookup k (mergeLoop ms ps) = some (mergePatch ((lookup k ms).getD .null) p)
  | [], ms, _, _ => by
    refine ⟨fun _ => by rw [mergeLoop], fun h => ?_, fun p h => ?_⟩ <;> · rw [lookup_nil] at h; cases h
  | (l, q) :: ps, ms, hs, hm => by
    have ht := lookup_tail hs
    have hs' := (List.pairwise_cons.mp hs).2
    rw [lookup_cons]
    by_cases e : k = l
    · subst e
      rw [if_pos rfl]
      by_cases hq : q = .null
      · subst hq
        rw [mergeLoop_null]
        have ih := (lookup_mergeLoop (k := k) ps hs' (sorted_eraseKey (k := k) hm)).1 ht
        refine ⟨fun h => (nomatch h), fun _ => by rw [ih, lookup_eraseKey hm], fun p h hp => ?_⟩
        injection h with h
        exact absurd h.symm hp
      · rw [mergeLoop_value _ _ hq]
        have ih := (lookup_mergeLoop (k := k) ps hs'
          (sorted_setKey (k := k) (v := mergePatch ((lookup k ms).getD .null) q) hm)).1 ht
        refine ⟨fun h => (nomatch h), fun h => ?_, fun p h hp => ?_⟩
        · injection h with h
          exact absurd h hq
        · injection h with h
          subst h
          rw [ih, lookup_setKey]
    · rw [if_neg e]
      by_cases hq : q = .null
      · subst hq
        rw [mergeLoop_null]
        have ih := lookup_mergeLoop (k := k) ps hs' (sorted_eraseKey (k := l) hm)
        rw [lookup_eraseKey_ne e] at ih
        exact ih
      · rw [mergeLoop_value _ _ hq]
        have ih := lookup_mergeLoop (k := k) ps hs'
          (sorted_setKey (k := l) (v := mergePatch ((lookup l ms).getD .null) q) hm)
        rw [lookup_setKey_ne e] at ih
        exact ih

theorem ordered_members {v : Json F} (h : Ordered v) : SortedM (members v) ∧ ∀ x ∈ members v, Ordered x.2 := by
  cases v <;> first
    | (rw [Ordered, orderedM_iff] at h; exact h)
    | exact ⟨List.Pairwise.nil, by simp [members]⟩

theorem ordered_getD {v : Json F} (h : Ordered v) (k : Bytes) : Ordered ((lookup k (members v)).getD .null) := by
  cases hl : lookup k (members v) with
  | none => simp [Ordered]
  | some w => exact (ordered_members h).2 _ (lookup_mem hl)

mutual
theorem merged_of : ∀ (p v : Json F), Ordered v → Ordered p → Merged v p (mergePatch v p)
  | .obj ps, v, hv, hp => by
    rw [Ordered] at hp
    rw [mergePatch_obj]
    have hm := ordered_members hv
    have hsr := sorted_mergeLoop ps hm.1
    refine .merged (fun k => mergePatch ((lookup k (members v)).getD .null) ((lookup k ps).getD .null)) hsr ?_ ?_ ?_ ?_ ?_
    · intro k hk w
      have := (lookup_mergeLoop (k := k) ps hp.1 hm.1).1 (lookup_none_iff.mpr fun x hx e => hk x.2 (by rw [← e]; exact hx))
      rw [← lookup_mem_iff hsr, ← lookup_mem_iff hm.1, this]
    · intro k hk w hw
      have := (lookup_mergeLoop (k := k) ps hp.1 hm.1).2.1 ((lookup_mem_iff hp.1).mpr hk)
      rw [← lookup_mem_iff hsr, this] at hw
      cases hw
    · intro k p hk hn
      have hl := (lookup_mem_iff hp.1).mpr hk
      rw [← lookup_mem_iff hsr, (lookup_mergeLoop (k := k) ps hp.1 hm.1).2.2 p hl hn, hl]
      rfl
    · intro k p w hk hn hw
      have hl := (lookup_mem_iff hp.1).mpr hk
      rw [hl, (lookup_mem_iff hm.1).mpr hw]
      exact merged_ofM ps k p hk hp.2 w (hm.2 _ hw)
    · intro k p hk hn hw
      have hl := (lookup_mem_iff hp.1).mpr hk
      have h0 : lookup k (members v) = none := lookup_none_iff.mpr fun x hx e => hw x.2 (by rw [← e]; exact hx)
      rw [hl, h0]
      exact merged_ofM ps k p hk hp.2 .null (by simp [Ordered])
  | .null, v, _, _ | .bool _, v, _, _ | .int _, v, _, _ | .uint _, v, _, _ | .float _, v, _, _ | .str _, v, _, _
  | .arr _, v, _, _ => by rw [mergePatch_other v (by simp)]; exact .replaced (by simp)
theorem merged_ofM : ∀ (ps : List (Bytes × Json F)) (k : Bytes) (p : Json F), (k, p) ∈ ps → OrderedM ps →
    ∀ w, Ordered w → Merged w p (mergePatch w p)
  | [], _, _, h, _, _, _ => by simp at h
  | (l, q) :: ps, k, p, h, ho, w, hw => by
    rw [OrderedM] at ho
    by_cases e : p = q
    · subst e; exact merged_of p w hw ho.1
    · refine merged_ofM ps k p ?_ ho.2 w hw
      rcases List.mem_cons.mp h with h | h
      · exact absurd (Prod.mk.inj h).2 e
      · exact h
end

/-- the relation leaves no choice -/
theorem merged_unique {v p r : Json F} (h : Merged v p r) : Ordered v → Ordered p → r = mergePatch v p := by
  induction h with
  | replaced h => intro _ _; rw [mergePatch_other _ h]
  | @merged v ps ns f hs h1 h2 h3 h4 h5 ih4 ih5 =>
    intro hv hp
    rw [Ordered] at hp
    have hm := ordered_members hv
    rw [mergePatch_obj]
    congr 1
    refine map_ext hs (sorted_mergeLoop ps hm.1) fun k => ?_
    obtain ⟨g1, g2, g3⟩ := lookup_mergeLoop (k := k) ps hp.1 hm.1
    cases hl : lookup k ps with
    | none =>
      rw [g1 hl]
      have hk : ∀ p, (k, p) ∉ ps := fun p hp => lookup_none_iff.mp hl _ hp rfl
      cases hk' : lookup k ns with
      | none =>
        symm
        rw [lookup_none_iff]
        intro x hx e
        refine lookup_none_iff.mp hk' x ?_ e
        have := (h1 k hk x.2).mpr (by rw [← e]; exact hx)
        rw [← e] at this
        exact this
      | some w => exact ((lookup_mem_iff hm.1).mpr ((h1 k hk w).mp (lookup_mem hk'))).symm
    | some p =>
      by_cases hn : p = .null
      · subst hn
        rw [g2 hl, lookup_none_iff]
        intro x hx e
        exact h2 k (lookup_mem hl) x.2 (by rw [← e]; exact hx)
      · rw [g3 p hl hn, (lookup_mem_iff hs).mpr (h3 k p (lookup_mem hl) hn)]
        congr 1
        have hop := orderedM_mem hp.2 (lookup_mem hl)
        cases hw : lookup k (members v) with
        | none =>
          exact ih5 k p (lookup_mem hl) hn (fun w hw' => lookup_none_iff.mp hw _ hw' rfl) (by simp [Ordered]) hop
        | some w => exact ih4 k p w (lookup_mem hl) hn (lookup_mem hw) (hm.2 _ (lookup_mem hw)) hop

/-- **C123** (what holds) After `v.merge_patch(p)` the value is the one RFC 7396 asks for: `p` if `p` is no
object; else an object, where a member not named in `p` is as it was, a member that is null in `p` is gone,
and every other member of `p` has been merged into the member of the same name, or into nothing. -/
theorem C123_rfc_iff (v p r : Json F) (hv : Ordered v) (hp : Ordered p) : mergePatch v p = r ↔ Merged v p r :=
  ⟨fun h => h ▸ merged_of p v hv hp, fun h => (merged_unique h hv hp).symm⟩

/-- for the examples: `{"a": {"b": null, "c": 1}, "z": null}` -/
def exPatch : Json Unit :=
  .obj [([0x61], .obj [([0x62], .null), ([0x63], .uint 1)]), ([0x7a], .null)]

/-- for the examples: `{"a": {"b": 2, "d": 3}, "x": 4, "z": 5}` -/
def exTarget : Json Unit :=
  .obj [([0x61], .obj [([0x62], .uint 2), ([0x64], .uint 3)]), ([0x78], .uint 4), ([0x7a], .uint 5)]

theorem exPatch_ordered : Ordered exPatch := by simp [exPatch, Ordered, OrderedM, List.cons_lt_cons_iff]
theorem exTarget_ordered : Ordered exTarget := by simp [exTarget, Ordered, OrderedM, List.cons_lt_cons_iff]

example : Merged exTarget exPatch (.obj [([0x61], .obj [([0x63], .uint 1), ([0x64], .uint 3)]), ([0x78], .uint 4)]) := by
  refine (C123_rfc_iff _ _ _ exTarget_ordered exPatch_ordered).mp ?_
  simp [exTarget, exPatch, mergePatch, mergeLoop, eraseKey_cons, setKey_cons, lookup_cons, List.cons_lt_cons_iff]

mutual
theorem merge_ordered : ∀ (p v : Json F), Ordered v → Ordered p → Ordered (mergePatch v p)
  | .obj ps, v, hv, hp => by
    rw [Ordered] at hp
    rw [mergePatch_obj, Ordered]
    exact ⟨sorted_mergeLoop ps (ordered_members hv).1, merge_orderedM ps (members v) hp.2
      (orderedM_of (ordered_members hv).2)⟩
  | .null, v, _, h | .bool _, v, _, h | .int _, v, _, h | .uint _, v, _, h | .float _, v, _, h | .str _, v, _, h
  | .arr _, v, _, h => by rw [mergePatch_other v (by simp)]; exact h
theorem merge_orderedM : ∀ (ps ms : List (Bytes × Json F)), OrderedM ps → OrderedM ms → OrderedM (mergeLoop ms ps)
  | [], ms, _, h => by rw [mergeLoop]; exact h
  | (k, p) :: ps, ms, hp, hm => by
    rw [OrderedM] at hp
    by_cases hn : p = .null
    · subst hn
      rw [mergeLoop_null]
      exact merge_orderedM ps _ hp.2 (orderedM_of fun x hx => orderedM_iff.mp hm x (eraseKey_sub hx))
    · rw [mergeLoop_value _ _ hn]
      refine merge_orderedM ps _ hp.2 (orderedM_of fun x hx => ?_)
      rcases setKey_sub hx with rfl | hx
      · refine merge_ordered p _ ?_ hp.1
        cases hl : lookup k ms with
        | none => simp [Ordered]
        | some w => exact orderedM_mem hm (lookup_mem hl)
      · exact orderedM_iff.mp hm x hx
end

mutual
theorem merge_again : ∀ (p v : Json F), Ordered v → Ordered p → mergePatch (mergePatch v p) p = mergePatch v p
  | .obj ps, v, hv, hp => by
    have ho := merge_ordered (.obj ps) v hv hp
    rw [Ordered] at hp
    rw [mergePatch_obj v] at ho ⊢
    rw [mergePatch_obj]
    have hm := ordered_members hv
    have hs := sorted_mergeLoop ps hm.1
    congr 1
    refine map_ext (sorted_mergeLoop ps hs) hs fun k => ?_
    obtain ⟨g1, g2, g3⟩ := lookup_mergeLoop (k := k) ps hp.1 hm.1
    obtain ⟨g1', g2', g3'⟩ := lookup_mergeLoop (k := k) ps hp.1 hs
    cases hl : lookup k ps with
    | none => rw [show members (Json.obj (mergeLoop (members v) ps)) = mergeLoop (members v) ps from rfl, g1' hl]
    | some p =>
      rw [show members (Json.obj (mergeLoop (members v) ps)) = mergeLoop (members v) ps from rfl]
      by_cases hn : p = .null
      · subst hn; rw [g2' hl, g2 hl]
      · rw [g3' p hl hn, g3 p hl hn, Option.getD_some]
        congr 1
        exact merge_againM ps k p (lookup_mem hl) hp.2 _ (ordered_getD hv k)
  | .null, v, _, _ | .bool _, v, _, _ | .int _, v, _, _ | .uint _, v, _, _ | .float _, v, _, _ | .str _, v, _, _
  | .arr _, v, _, _ => by rw [mergePatch_other _ (by simp), mergePatch_other _ (by simp)]
theorem merge_againM : ∀ (ps : List (Bytes × Json F)) (k : Bytes) (p : Json F), (k, p) ∈ ps → OrderedM ps →
    ∀ w, Ordered w → mergePatch (mergePatch w p) p = mergePatch w p
  | [], _, _, h, _, _, _ => by simp at h
  | (l, q) :: ps, k, p, h, ho, w, hw => by
    rw [OrderedM] at ho
    by_cases e : p = q
    · subst e; exact merge_again p w hw ho.1
    · refine merge_againM ps k p ?_ ho.2 w hw
      rcases List.mem_cons.mp h with h | h
      · exact absurd (Prod.mk.inj h).2 e
      · exact h
end

/-- **C123** (what holds) Merging a patch again changes nothing. -/
theorem C123_again (v p : Json F) (hv : Ordered v) (hp : Ordered p) :
    mergePatch (mergePatch v p) p = mergePatch v p := merge_again p v hv hp

example : mergePatch (mergePatch exTarget exPatch) exPatch = mergePatch exTarget exPatch :=
  C123_again _ _ exTarget_ordered exPatch_ordered

mutual
/-- no member of an object, at any depth of objects, is null -/
def NoNull : Json F → Prop
  | .obj ms => NoNullM ms
  | .null | .bool _ | .int _ | .uint _ | .float _ | .str _ | .arr _ => True
def NoNullM : List (Bytes × Json F) → Prop
  | [] => True
  | (_, v) :: ms => v ≠ .null ∧ NoNull v ∧ NoNullM ms
end

theorem noNullM_iff {ms : List (Bytes × Json F)} : NoNullM ms ↔ ∀ x ∈ ms, x.2 ≠ .null ∧ NoNull x.2 := by
  induction ms with
  | nil => simp [NoNullM]
  | cons x ms ih => obtain ⟨k, v⟩ := x; rw [NoNullM, ih]; simp [and_assoc]

mutual
theorem noNull_merge : ∀ (p v : Json F), NoNull v → NoNull (mergePatch v p)
  | .obj ps, v, hv => by
    rw [mergePatch_obj, NoNull]
    refine noNull_mergeM ps _ ?_
    cases v <;> (rw [NoNull] at hv; exact hv)
  | .null, v, _ | .bool _, v, _ | .int _, v, _ | .uint _, v, _ | .float _, v, _ | .str _, v, _
  | .arr _, v, _ => by rw [mergePatch_other _ (by simp)]; simp [NoNull]
theorem noNull_mergeM : ∀ (ps ms : List (Bytes × Json F)), NoNullM ms → NoNullM (mergeLoop ms ps)
  | [], ms, h => by rw [mergeLoop]; exact h
  | (k, p) :: ps, ms, h => by
    by_cases hn : p = .null
    · subst hn
      rw [mergeLoop_null]
      exact noNull_mergeM ps _ (noNullM_iff.mpr fun x hx => noNullM_iff.mp h x (eraseKey_sub hx))
    · rw [mergeLoop_value _ _ hn]
      refine noNull_mergeM ps _ (noNullM_iff.mpr fun x hx => ?_)
      rcases setKey_sub hx with rfl | hx
      · constructor
        · intro e
          cases p with
          | obj qs => rw [mergePatch_obj] at e; cases e
          | null => exact hn rfl
          | _ => rw [mergePatch_other _ (by simp)] at e; cases e
        · refine noNull_merge p _ ?_
          cases hl : lookup k ms with
          | none => simp [NoNull]
          | some w => exact (noNullM_iff.mp h _ (lookup_mem hl)).2
      · exact noNullM_iff.mp h x hx
end

mutual
theorem merge_whole : ∀ (p v : Json F), (∀ ms, v ≠ .obj ms) → Ordered p → NoNull p → mergePatch v p = p
  | .obj ps, v, hv, hp, hn => by
    rw [Ordered] at hp
    rw [NoNull] at hn
    have hv0 : members v = [] := by cases v <;> first | exact absurd rfl (hv _) | rfl
    rw [mergePatch_obj, hv0]
    congr 1
    refine map_ext (sorted_mergeLoop ps List.Pairwise.nil) hp.1 fun k => ?_
    obtain ⟨g1, g2, g3⟩ := lookup_mergeLoop (k := k) (ms := []) ps hp.1 List.Pairwise.nil
    cases hl : lookup k ps with
    | none => rw [g1 hl, lookup_nil]
    | some p =>
      rw [g3 p hl (noNullM_iff.mp hn _ (lookup_mem hl)).1, lookup_nil, Option.getD_none]
      congr 1
      exact merge_wholeM ps k p (lookup_mem hl) hp.2 hn
  | .null, v, _, _, _ | .bool _, v, _, _, _ | .int _, v, _, _, _ | .uint _, v, _, _, _ | .float _, v, _, _, _
  | .str _, v, _, _, _ | .arr _, v, _, _, _ => mergePatch_other _ (by simp)
theorem merge_wholeM : ∀ (ps : List (Bytes × Json F)) (k : Bytes) (p : Json F), (k, p) ∈ ps → OrderedM ps → NoNullM ps →
    mergePatch .null p = p
  | [], _, _, h, _, _ => by simp at h
  | (l, q) :: ps, k, p, h, ho, hn => by
    rw [OrderedM] at ho
    rw [NoNullM] at hn
    by_cases e : p = q
    · subst e; exact merge_whole p .null (by simp) ho.1 hn.2.1
    · refine merge_wholeM ps k p ?_ ho.2 hn.2.2
      rcases List.mem_cons.mp h with h | h
      · exact absurd (Prod.mk.inj h).2 e
      · exact h
end

/-- **C123** (what holds) A merge patch makes no member null that was not, at any depth; one that has no null
members itself and is merged into something that is no object is what is left. -/
theorem C123_no_null (v p : Json F) (hp : Ordered p) :
    (NoNull v → NoNull (mergePatch v p)) ∧ ((∀ ms, v ≠ .obj ms) → NoNull p → mergePatch v p = p) :=
  ⟨noNull_merge p v, fun h => merge_whole p v h hp⟩

example : NoNull (mergePatch exTarget exPatch) ∧ mergePatch (.uint 1) exTarget = exTarget :=
  ⟨(C123_no_null _ _ exPatch_ordered).1 (by simp [exTarget, NoNull, NoNullM]),
    (C123_no_null (.uint 1) exTarget exTarget_ordered).2 (by simp) (by simp [exTarget, NoNull, NoNullM])⟩

end Verif.Json
