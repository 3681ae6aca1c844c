import Verif.Zip.Model

/-!
# C08: a loop over zipped ranges visits the i-th elements of all of them together
-/

namespace Verif.Zip

/-! ## Specification -/
namespace Spec

/-- the tuple of `i`-th elements -/
def column (rs : List (List α)) (i : Nat) : List α := rs.filterMap (·[i]?)

/-- state of the body before it is run on column `i` -/
def stateAt (body : Body σ α) (s : σ) (rs : List (List α)) : Nat → σ
  | 0 => s
  | i + 1 => (body (stateAt body s rs i) (column rs i)).1

/-- The loop has visited columns `0..n-1` of `rs` once each, in order, seeing the original
values; what the body assigned is in place and nothing else changed. -/
def Visited (body : Body σ α) (s : σ) (rs : List (List α)) (n : Nat)
    (s' : σ) (rs' : List (List α)) : Prop :=
  s' = stateAt body s rs n ∧ rs'.map List.length = rs.map List.length ∧
  ∀ (k i : Nat) (r r' : List α), rs[k]? = some r → rs'[k]? = some r' →
    r'[i]? = if i < n then some ((body (stateAt body s rs i) (column rs i)).2 k) else r[i]?

end Spec

/-! ## Lemmas -/

theorem increment_replicate (m i : Nat) : increment (List.replicate m i) = List.replicate m (i + 1) := by
  induction m with
  | zero => rfl
  | succ m ih => simp [List.replicate_succ, increment, ih]

theorem notEqual_iff (ls : List Nat) (h : ls ≠ []) (i : Nat) :
    notEqualTuples (List.replicate ls.length i) ls = true ↔ ∀ l ∈ ls, i ≠ l := by
  induction ls with
  | nil => simp at h
  | cons l ls ih =>
    cases ls with
    | nil => simp [notEqualTuples]
    | cons l' ls =>
      have := ih (by simp)
      simp only [List.length_cons, List.replicate_succ] at this ⊢
      simp only [notEqualTuples, Bool.and_eq_true, this]
      simp

theorem dereference_column (rs : List (List α)) (i : Nat) (h : ∀ r ∈ rs, i < r.length) :
    dereference rs (List.replicate rs.length i) = .ok (Spec.column rs i) := by
  induction rs with
  | nil => rfl
  | cons r rs ih =>
    have hr : i < r.length := h r (by simp)
    simp only [List.length_cons, List.replicate_succ, dereference, List.getElem?_eq_getElem hr]
    rw [ih (fun r hr => h r (by simp [hr]))]
    simp [Spec.column, hr]

theorem assign_getElem? (rs : List (List α)) (i : Nat) (vs : List α) (hv : vs.length = rs.length) (k : Nat) :
    (assign rs (List.replicate rs.length i) vs)[k]? =
      (match rs[k]?, vs[k]? with | some r, some v => some (r.set i v) | _, _ => none) := by
  induction rs generalizing vs k with
  | nil => simp [assign]
  | cons r rs ih =>
    cases vs with
    | nil => simp at hv
    | cons v vs =>
      simp only [List.length_cons, Nat.add_right_cancel_iff] at hv
      simp only [List.length_cons, List.replicate_succ, assign]
      cases k with
      | zero => simp
      | succ k => simpa using ih vs hv k

theorem assign_length (rs : List (List α)) (i : Nat) (vs : List α) :
    (assign rs (List.replicate rs.length i) vs).map List.length = rs.map List.length := by
  induction rs generalizing vs with
  | nil => simp [assign]
  | cons r rs ih =>
    cases vs with
    | nil => simp [assign]
    | cons v vs =>
      simp only [List.length_cons, List.replicate_succ, assign, List.map_cons, List.length_set, ih]

theorem column_congr (rs rs' : List (List α)) (i : Nat) (hl : rs'.length = rs.length)
    (h : ∀ (k : Nat) (r r' : List α), rs[k]? = some r → rs'[k]? = some r' → r'[i]? = r[i]?) :
    Spec.column rs' i = Spec.column rs i := by
  induction rs generalizing rs' with
  | nil => cases rs' with
    | nil => rfl
    | cons => simp at hl
  | cons r rs ih =>
    cases rs' with
    | nil => simp at hl
    | cons r' rs' =>
      have h0 := h 0 r r' (by simp) (by simp)
      have := ih rs' (by simpa using hl) (fun k a b ha hb => h (k + 1) a b (by simpa using ha) (by simpa using hb))
      unfold Spec.column at this ⊢
      rw [List.filterMap_cons, List.filterMap_cons, h0, this]

theorem forEach_ok (body : Body σ α) (s : σ) (rs : List (List α)) (n : Nat)
    (hn : ∀ r ∈ rs, n ≤ r.length) (hn' : ∃ r ∈ rs, r.length = n) :
    ∀ (d i : Nat) (cs : List (List α)), d + i = n →
      Spec.Visited body s rs i (Spec.stateAt body s rs i) cs →
      ∀ fuel, d + 1 ≤ fuel →
        ∃ s' rs', forEach body (rs.map List.length) fuel (List.replicate rs.length i)
          (Spec.stateAt body s rs i) cs = .ok (s', rs') ∧ Spec.Visited body s rs n s' rs' := by
  have hne : rs.map List.length ≠ [] := by
    obtain ⟨r, hr, _⟩ := hn'; intro h; simp at h; simp [h] at hr
  intro d
  induction d with
  | zero =>
    intro i cs hd hv fuel hf
    obtain ⟨fuel, rfl⟩ : ∃ f, fuel = f + 1 := ⟨fuel - 1, by omega⟩
    have : ¬ notEqualTuples (List.replicate rs.length i) (rs.map List.length) = true := by
      have := notEqual_iff (rs.map List.length) hne i
      simp only [List.length_map] at this
      rw [this]
      obtain ⟨r, hr, e⟩ := hn'
      intro hh
      exact hh r.length (List.mem_map.2 ⟨r, hr, rfl⟩) (by omega)
    refine ⟨_, _, by simp only [forEach]; rw [if_neg this], ?_⟩
    have : i = n := by omega
    subst this; exact hv
  | succ d ih =>
    intro i cs hd hv fuel hf
    obtain ⟨fuel, rfl⟩ : ∃ f, fuel = f + 1 := ⟨fuel - 1, by omega⟩
    have hc : notEqualTuples (List.replicate rs.length i) (rs.map List.length) = true := by
      have := notEqual_iff (rs.map List.length) hne i
      simp only [List.length_map] at this
      rw [this]
      intro l hl
      obtain ⟨r, hr, rfl⟩ := List.mem_map.1 hl
      have := hn r hr; omega
    obtain ⟨_, hlen, hval⟩ := hv
    have hcl : cs.length = rs.length := by
      have := congrArg List.length hlen; simpa using this
    have hcol : Spec.column cs i = Spec.column rs i :=
      column_congr _ _ _ hcl (fun k r r' h1 h2 => by rw [hval k i r r' h1 h2]; simp)
    have hall : ∀ r ∈ cs, i < r.length := by
      intro r hr
      have : r.length ∈ rs.map List.length := by rw [← hlen]; exact List.mem_map.2 ⟨r, hr, rfl⟩
      obtain ⟨r', hr', e⟩ := List.mem_map.1 this
      have := hn r' hr'; omega
    have hd' := dereference_column cs i hall
    rw [hcl] at hd'
    simp only [forEach, if_pos hc, hd', Outcome.bind_ok, hcol, increment_replicate]
    refine ih (i + 1) _ (by omega) ?_ fuel (by omega)
    refine ⟨rfl, ?_, ?_⟩
    · have := assign_length cs i ((List.range cs.length).map (body (Spec.stateAt body s rs i) (Spec.column rs i)).2)
      rw [hcl] at this
      rw [hcl, this, hlen]
    · intro k j r r' hr hr'
      have hk : k < rs.length := by
        by_cases hk : k < rs.length
        · exact hk
        · rw [List.getElem?_eq_none (by omega)] at hr; simp at hr
      have ha := assign_getElem? cs i ((List.range cs.length).map
        (body (Spec.stateAt body s rs i) (Spec.column rs i)).2) (by simp) k
      rw [hcl] at ha
      rw [hcl] at hr'
      rw [ha] at hr'
      have hc' : cs[k]? = some cs[k] := List.getElem?_eq_getElem (by omega)
      have hlk : i < (cs[k]).length := hall _ (List.getElem_mem _)
      have := hval k j r cs[k] hr hc'
      have hvk : ((List.range rs.length).map (body (Spec.stateAt body s rs i) (Spec.column rs i)).2)[k]?
          = some ((body (Spec.stateAt body s rs i) (Spec.column rs i)).2 k) := by simp [hk]
      rw [hc', hvk] at hr'
      simp only [Option.some.injEq] at hr'
      rw [← hr', List.getElem?_set]
      by_cases hij : i = j
      · subst hij; simp [hlk]
      · rw [if_neg hij, this]
        by_cases h1 : j < i
        · rw [if_pos h1, if_pos (by omega)]
        · rw [if_neg h1, if_neg (by omega)]

/-- **C08** For any number of ranges (at least one), of any lengths, the loop over the
zipped ranges terminates after visiting exactly the columns `0 .. n-1`, where `n` is the
length of the shortest range; every assignment the body makes lands in the right element,
and nothing else is touched. -/
theorem C08_loop_visits_columns {σ α : Type} (body : Body σ α) (s : σ) (rs : List (List α)) (n : Nat)
    (hn : ∀ r ∈ rs, n ≤ r.length) (hn' : ∃ r ∈ rs, r.length = n) (fuel : Nat) (hf : n + 1 ≤ fuel) :
    ∃ s' rs', forEach body (rs.map List.length) fuel (rs.map fun _ => 0) s rs = .ok (s', rs') ∧
      Spec.Visited body s rs n s' rs' := by
  have h0 : (rs.map fun _ => 0) = List.replicate rs.length 0 := by
    apply List.ext_getElem <;> simp
  rw [h0]
  exact forEach_ok body s rs n hn hn' n 0 rs rfl
    ⟨rfl, rfl, fun k i r r' h1 h2 => by simp [h1] at h2; simp [h2]⟩ fuel hf

example : ∃ n, (∀ r ∈ [[1, 2, 3], [4, 5]], n ≤ r.length) ∧ (∃ r ∈ [[1, 2, 3], [4, 5]], r.length = n) :=
  ⟨2, by simp, by simp⟩

/-- **C08 (partial)** `simple_task` on at least two ranges of equal length `n` runs the
function once per column, in order.  Missing: the single-range call, see
`C08_single_range_undefined`. -/
theorem C08_simple_task_partial {σ α : Type} (body : Body σ α) (s : σ) (rs : List (List α)) (n : Nat)
    (h2 : 2 ≤ rs.length) (hn : ∀ r ∈ rs, r.length = n) (fuel : Nat) (hf : n + 1 ≤ fuel) :
    ∃ s' rs', simpleTask body fuel s rs = .ok (s', rs') ∧ Spec.Visited body s rs n s' rs' := by
  match rs, h2, hn with
  | r0 :: r1 :: rest, _, hn =>
    obtain ⟨s', rs', e, hv⟩ := C08_loop_visits_columns body s (r0 :: r1 :: rest) n
      (fun r hr => by rw [hn r hr]; exact Nat.le_refl n) ⟨r0, by simp, hn r0 (by simp)⟩ fuel hf
    refine ⟨s', rs', ?_, hv⟩
    have hck : zipCheck (r0 :: r1 :: rest) = .ok () := by
      have hall : (List.map List.length rest).all (fun s => r1.length == s) = true := by
        rw [List.all_eq_true]
        intro l hl
        obtain ⟨r, hr, rfl⟩ := List.mem_map.1 hl
        rw [hn r (by simp [hr]), hn r1 (by simp)]
        simp
      simp only [zipCheck, List.map_cons, hall, Outcome.assert_true]
    rw [simpleTask, hck]
    exact e

example : 2 ≤ [[1, 2], [3, 4], [5, 6]].length ∧ ∀ r ∈ [[1, 2], [3, 4], [5, 6]], r.length = 2 := by simp

/-- **C08** What the size check rejects: exactly a mismatch between the second range and a
later one. -/
theorem C08_check_rejects_iff {α : Type} (r0 r1 : List α) (rest : List (List α)) :
    (zipCheck (r0 :: r1 :: rest) = .assertFail ↔ ∃ r ∈ rest, r.length ≠ r1.length) ∧
    (zipCheck (r0 :: r1 :: rest) = .ok () ↔ ∀ r ∈ rest, r.length = r1.length) := by
  simp only [zipCheck, List.map_cons]
  cases h : (List.map List.length rest).all (fun s => r1.length == s) with
  | true =>
    rw [List.all_eq_true] at h
    have : ∀ r ∈ rest, r.length = r1.length := fun r hr => by
      have := h r.length (List.mem_map.2 ⟨r, hr, rfl⟩); simp at this; exact this.symm
    constructor
    · simp only [Outcome.assert_true]
      constructor
      · intro h; cases h
      · rintro ⟨r, hr, hh⟩; exact absurd (this r hr) hh
    · simp only [Outcome.assert_true]; exact ⟨fun _ => this, fun _ => trivial⟩
  | false =>
    have : ∃ r ∈ rest, r.length ≠ r1.length := by
      simp [List.all_eq_false] at h
      obtain ⟨r, hr, hh⟩ := h
      exact ⟨r, hr, fun e => hh e.symm⟩
    constructor
    · exact ⟨fun _ => this, fun _ => rfl⟩
    · constructor
      · intro h; cases h
      · intro h'; obtain ⟨r, hr, hh⟩ := this; exact absurd (h' r hr) hh

/-- **C08 fails** Ranges of different lengths are not always rejected: two ranges are never
compared, so the longer one is silently cut short. -/
theorem C08_mismatch_accepted_fails {α : Type} (r0 r1 : List α) :
    zipCheck [r0, r1] = .ok () := by simp [zipCheck]

/-- **C08 fails** Zipping a single range reads past the array of sizes. -/
theorem C08_single_range_undefined_fails {α : Type} (r : List α) : zipCheck [r] = .ub := rfl

end Verif.Zip
