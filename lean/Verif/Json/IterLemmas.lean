import Verif.Json.IterModel
import Verif.Json.MapLemmas

/-!
# Lemmas about iterators

`posIt v a i` is the iterator with `i` elements before it; what the operators do is expressed by it.
-/

namespace Verif.Json

variable {F : Type}

/-- the elements a value has for its iterators -/
def elems : Json F → List (Json F)
  | .null => []
  | .arr xs => xs
  | .obj ms => ms.map (·.2)
  | v => [v]

/-- the iterator with `i` elements before it -/
def posIt (v : Json F) (a i : Nat) : Iter :=
  match v with
  | .obj _ => { owner := some a, objIt := some i }
  | .arr _ => { owner := some a, arrIt := some i }
  | .null => { owner := some a, prim := 1 }
  | _ => { owner := some a, prim := i }

theorem posIt_owner (v : Json F) (a i : Nat) : (posIt v a i).owner = some a := by cases v <;> rfl

theorem elems_length (v : Json F) : (elems v).length = size_ v := by cases v <;> simp [elems, size_]

theorem begin_eq (σ : Store F) (a : Nat) : begin_ σ a = posIt (σ a) a 0 := by
  rw [begin_]; cases σ a <;> rfl

theorem end_eq (σ : Store F) (a : Nat) : end_ σ a = posIt (σ a) a (elems (σ a)).length := by
  rw [end_]; cases h : σ a <;> simp [posIt, elems]

theorem derefPos_ok {vs : List (Json F)} {i : Nat} (h : i < vs.length) : derefPos vs (some i) = .ok vs[i] := by
  rw [derefPos, if_neg (by omega), List.getElem?_eq_getElem h]

theorem deref_pos {σ : Store F} {a i : Nat} (h : i < (elems (σ a)).length) :
    deref σ (posIt (σ a) a i) = .ok (elems (σ a))[i] := by
  simp only [deref, posIt_owner]
  revert h
  cases hv : σ a with
  | null => intro h; simp [elems] at h
  | arr xs => intro h; exact derefPos_ok h
  | obj ms => intro h; exact derefPos_ok h
  | _ => intro h; simp [elems] at h; subst h; simp [posIt, elems]

theorem advance_ok {size i : Nat} {n : Int} (h1 : 0 ≤ (i : Int) + n) (h2 : (i : Int) + n ≤ size) :
    advance size n (some i) = .ok (some ((i : Int) + n).toNat) := by rw [advance, if_pos ⟨h1, h2⟩]

theorem step_pos {σ : Store F} {a i : Nat} {n : Int} (hn : σ a ≠ .null) (h1 : 0 ≤ (i : Int) + n)
    (h2 : (i : Int) + n ≤ (elems (σ a)).length) :
    step_ σ n (posIt (σ a) a i) = .ok (posIt (σ a) a ((i : Int) + n).toNat) := by
  simp only [step_, posIt_owner]
  revert h2 hn
  cases hv : σ a with
  | null => intro hn; exact absurd rfl hn
  | arr xs => intro _ h2; simp only [posIt, elems] at *; rw [advance_ok h1 h2]; rfl
  | obj ms => intro _ h2; simp only [posIt, elems, List.length_map] at *; rw [advance_ok h1 h2]; rfl
  | _ =>
    intro _ h2
    simp only [posIt, elems, List.length_singleton] at *
    rw [diffT, if_pos (by omega), Outcome.bind_ok]
    congr 2
    omega

theorem not_null {σ : Store F} {a i : Nat} (h : i < (elems (σ a)).length) : σ a ≠ .null := by
  intro hn; rw [hn] at h; simp [elems] at h

theorem incr_pos {σ : Store F} {a i : Nat} (h : i < (elems (σ a)).length) :
    incr σ (posIt (σ a) a i) = .ok (posIt (σ a) a (i + 1)) := by
  rw [incr, step_pos (not_null h) (by omega) (by omega)]
  congr 2

theorem decr_pos {σ : Store F} {a i : Nat} (h : i < (elems (σ a)).length) :
    decr σ (posIt (σ a) a (i + 1)) = .ok (posIt (σ a) a i) := by
  rw [decr, step_pos (not_null h) (by omega) (by omega)]
  congr 2
  omega

theorem eq_pos {σ : Store F} {a i j : Nat} (hi : i ≤ (elems (σ a)).length) (hj : j ≤ (elems (σ a)).length) :
    iterEq σ (posIt (σ a) a i) (posIt (σ a) a j) = .ok (i == j) := by
  simp only [iterEq, posIt_owner, ne_eq, not_true_eq_false, if_false]
  revert hi hj
  cases hv : σ a with
  | null => intro hi hj; simp only [elems, List.length_nil] at hi hj; simp only [posIt]; simp [show i = j by omega]
  | arr xs => intro _ _; rfl
  | obj ms => intro _ _; rfl
  | _ =>
    intro _ _
    simp only [posIt]
    congr 1
    rw [Bool.eq_iff_iff, beq_iff_eq, beq_iff_eq]
    omega

theorem ne_pos {σ : Store F} {a i j : Nat} (hi : i ≤ (elems (σ a)).length) (hj : j ≤ (elems (σ a)).length) :
    iterNe σ (posIt (σ a) a i) (posIt (σ a) a j) = .ok (i != j) := by rw [iterNe, eq_pos hi hj]; rfl

theorem walk_pos {σ : Store F} {a : Nat} : ∀ (n i j : Nat), i ≤ j → j ≤ (elems (σ a)).length → j - i < n →
    walk σ n (posIt (σ a) a i) (posIt (σ a) a j) = .ok (((elems (σ a)).take j).drop i)
  | 0, i, j, _, _, hn => by omega
  | n + 1, i, j, hij, hj, hn => by
    rw [walk, ne_pos (by omega) hj, Outcome.bind_ok]
    by_cases h : i = j
    · subst h
      rw [if_neg (by simp)]
      simp
    · have hl : i < (elems (σ a)).length := by omega
      rw [if_pos (by simpa using h), deref_pos hl, Outcome.bind_ok, incr_pos hl, Outcome.bind_ok,
        walk_pos n (i + 1) j (by omega) hj (by omega), Outcome.bind_ok]
      rw [List.drop_eq_getElem_cons (l := (elems (σ a)).take j) (i := i) (by simp; omega)]
      simp

theorem revWalk_pos {σ : Store F} {a : Nat} : ∀ (n i j : Nat), i ≤ j → j ≤ (elems (σ a)).length → j - i < n →
    revWalk σ n (posIt (σ a) a j) (posIt (σ a) a i) = .ok (((elems (σ a)).take j).drop i).reverse
  | 0, i, j, _, _, hn => by omega
  | n + 1, i, j, hij, hj, hn => by
    rw [revWalk, ne_pos hj (by omega), Outcome.bind_ok]
    by_cases h : i = j
    · subst h
      rw [if_neg (by simp)]
      simp
    · obtain ⟨j, rfl⟩ : ∃ k, j = k + 1 := ⟨j - 1, by omega⟩
      have hl : j < (elems (σ a)).length := by omega
      rw [if_pos (by simp; omega), revDeref, decr_pos hl, Outcome.bind_ok, deref_pos hl, Outcome.bind_ok,
        Outcome.bind_ok, revWalk_pos n i j (by omega) (by omega) (by omega), Outcome.bind_ok]
      rw [List.take_succ_eq_append_getElem hl, List.drop_append_of_le_length (by simp; omega)]
      simp

/-- the keys the elements have in `items()` -/
def itemKeys : Json F → List Bytes
  | .null => []
  | .arr xs => (List.range xs.length).map toStr
  | .obj ms => ms.map (·.1)
  | _ => [[]]

theorem itemKeys_length (v : Json F) : (itemKeys v).length = (elems v).length := by cases v <;> simp [elems, itemKeys]

/-- the text kept belongs to the index kept -/
def Item.good (e : Item) : Prop := e.text = toStr e.last

theorem itemKey_pos {σ : Store F} {a i : Nat} (h : i < (elems (σ a)).length) {e : Item} (hg : e.good)
    (ha : e.anchor = posIt (σ a) a i) (hi : e.idx = i) :
    ∃ e', itemKey σ e = .ok ((itemKeys (σ a))[i]'(by rw [itemKeys_length]; exact h), e') ∧ e'.good ∧
      e'.anchor = e.anchor ∧ e'.idx = e.idx := by
  simp only [itemKey, ha, posIt_owner]
  revert h ha
  cases hv : σ a with
  | null => intro h; simp [elems] at h
  | arr xs =>
    intro h ha
    simp only [itemKeys, List.getElem_map, List.getElem_range]
    by_cases hl : e.idx = e.last
    · refine ⟨e, ?_, hg, ha, rfl⟩
      rw [if_neg (by simpa using hl)]
      rw [hg, ← hl, hi]
    · refine ⟨{ e with text := toStr e.idx, last := e.idx }, ?_, rfl, ha, rfl⟩
      rw [if_pos hl]
      simp [hi, ha]
  | obj ms =>
    intro h ha
    refine ⟨e, ?_, hg, ha, rfl⟩
    have h' : i < ms.length := by simpa [elems] using h
    simp only [iterKey, posIt, hv, List.getElem?_eq_getElem h', itemKeys, List.getElem_map, Outcome.bind_ok]
  | _ =>
    intro h ha
    exact ⟨e, by simp [itemKeys], hg, ha, rfl⟩

theorem itemWalk_pos {σ : Store F} {a : Nat} : ∀ (fs : List Bool) (i : Nat) (e : Item),
    i ≤ (elems (σ a)).length → (elems (σ a)).length - i < fs.length → e.good → e.anchor = posIt (σ a) a i →
    e.idx = i →
    itemWalk σ fs e (posIt (σ a) a (elems (σ a)).length) =
      .ok ((fs.zip (((itemKeys (σ a)).zip (elems (σ a))).drop i)).map fun p => (if p.1 then some p.2.1 else none, p.2.2))
  | [], i, e, _, hn, _, _, _ => by simp at hn
  | f :: fs, i, e, hi, hn, hg, ha, hx => by
    rw [itemWalk, ha, ne_pos hi (Nat.le_refl _), Outcome.bind_ok]
    have hz : ((itemKeys (σ a)).zip (elems (σ a))).length = (elems (σ a)).length := by
      rw [List.length_zip, itemKeys_length]; omega
    by_cases h : i = (elems (σ a)).length
    · rw [if_neg (by simpa using h), List.drop_eq_nil_of_le (by rw [hz]; omega)]
      simp
    · have hl : i < (elems (σ a)).length := by omega
      rw [if_pos (by simpa using h)]
      simp only [List.length_cons] at hn
      have hd : ((itemKeys (σ a)).zip (elems (σ a))).drop i =
          ((itemKeys (σ a))[i]'(by rw [itemKeys_length]; exact hl), (elems (σ a))[i]) ::
            ((itemKeys (σ a)).zip (elems (σ a))).drop (i + 1) := by
        rw [List.drop_eq_getElem_cons (by rw [hz]; exact hl)]
        simp
      cases f with
      | false =>
        rw [if_neg (by simp), Outcome.bind_ok]
        simp only [ha]
        rw [deref_pos hl, Outcome.bind_ok, incr_pos hl, Outcome.bind_ok,
          itemWalk_pos fs (i + 1) _ (by omega) (by omega) (by exact hg) rfl (by simp [hx]), Outcome.bind_ok, hd]
        simp
      | true =>
        obtain ⟨e', he, hg', ha', hx'⟩ := itemKey_pos hl hg ha hx
        rw [if_pos rfl, he, Outcome.bind_ok, Outcome.bind_ok]
        simp only [ha', ha]
        rw [deref_pos hl, Outcome.bind_ok, incr_pos hl, Outcome.bind_ok,
          itemWalk_pos fs (i + 1) _ (by omega) (by omega) (by exact hg') rfl (by simp [hx', hx]), Outcome.bind_ok, hd]
        simp

/-- `i` times `++` -/
def stepped (σ : Store F) : Nat → Iter → Outcome Iter
  | 0, it => .ok it
  | i + 1, it => incr σ it >>= fun it' => stepped σ i it'

theorem stepped_pos {σ : Store F} {a : Nat} : ∀ (i k : Nat), k + i ≤ (elems (σ a)).length →
    stepped σ i (posIt (σ a) a k) = .ok (posIt (σ a) a (k + i))
  | 0, k, _ => rfl
  | i + 1, k, h => by
    rw [stepped, incr_pos (by omega), Outcome.bind_ok, stepped_pos i (k + 1) (by omega)]
    congr 2
    omega

end Verif.Json
