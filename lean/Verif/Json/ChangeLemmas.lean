import Verif.Json.PatchLemmas

/-!
# What the operations of a JSON patch do, and lemmas about it
-/

namespace Verif.Json
open Spec

variable {F L : Type} [LinearOrder L]

namespace Spec

/-- the value the pointer leads to is changed as `R` says, and nothing else -/
inductive Change (Ix : Bytes → Nat → Prop) (R : Json F → Json F → Prop) : List Bytes → Json F → Json F → Prop
  | here {a b : Json F} : R a b → Change Ix R [] a b
  | member {t : Bytes} {ts : List Bytes} {ms ns : List (Bytes × Json F)} {a b : Json F} :
      Change Ix R ts a b → Change Ix R (t :: ts) (.obj (ms ++ (t, a) :: ns)) (.obj (ms ++ (t, b) :: ns))
  | element {t : Bytes} {ts : List Bytes} {xs ys : List (Json F)} {a b : Json F} :
      Ix t xs.length → Change Ix R ts a b → Change Ix R (t :: ts) (.arr (xs ++ a :: ys)) (.arr (xs ++ b :: ys))

/-- the value `x` added to an object or array under the token `t`, RFC 6902 section 4.1 -/
inductive Added (Jx : Bytes → Nat → Prop) (t : Bytes) (x : Json F) : Json F → Json F → Prop
  | new {ms ns : List (Bytes × Json F)} : (∀ m ∈ ms, m.1 < t) → (∀ m ∈ ns, t < m.1) →
      Added Jx t x (.obj (ms ++ ns)) (.obj (ms ++ (t, x) :: ns))
  | replaced {ms ns : List (Bytes × Json F)} {a : Json F} :
      Added Jx t x (.obj (ms ++ (t, a) :: ns)) (.obj (ms ++ (t, x) :: ns))
  | inserted {xs ys : List (Json F)} : Jx t xs.length → Added Jx t x (.arr (xs ++ ys)) (.arr (xs ++ x :: ys))
  | appended {xs : List (Json F)} : t = [0x2d] → Added Jx t x (.arr xs) (.arr (xs ++ [x]))

/-- the member or element under the token `t` removed, RFC 6902 section 4.2 -/
inductive Removed (Jx : Bytes → Nat → Prop) (t : Bytes) : Json F → Json F → Prop
  | member {ms ns : List (Bytes × Json F)} {a : Json F} : Removed Jx t (.obj (ms ++ (t, a) :: ns)) (.obj (ms ++ ns))
  | element {xs ys : List (Json F)} {a : Json F} : Jx t xs.length →
      Removed Jx t (.arr (xs ++ a :: ys)) (.arr (xs ++ ys))

/-- the value `x` added at a place -/
inductive AddAt (Ix Jx : Bytes → Nat → Prop) (x : Json F) : List Bytes → Json F → Json F → Prop
  | whole (v : Json F) : AddAt Ix Jx x [] v x
  | part {ts : List Bytes} {t : Bytes} {v v' : Json F} : Change Ix (Added Jx t x) ts v v' → AddAt Ix Jx x (ts ++ [t]) v v'

/-- the value at a place removed -/
inductive RemoveAt (Ix Jx : Bytes → Nat → Prop) : List Bytes → Json F → Json F → Prop
  | part {ts : List Bytes} {t : Bytes} {v v' : Json F} : Change Ix (Removed Jx t) ts v v' → RemoveAt Ix Jx (ts ++ [t]) v v'

/-- one operation of a patch, by RFC 6902 section 4; `Ix` and `Jx` say what is an array index inside and at
the end of a pointer -/
inductive Performs (Ix Jx : Bytes → Nat → Prop) (fo : FloatOrder F L) : Json F → Json F → Json F → Prop
  | add {ms : List (Bytes × Json F)} {p : Bytes} {ts : List Bytes} {x v v' : Json F} :
      (wOp, .str wAdd) ∈ ms → (wPath, .str p) ∈ ms → Pointer p ts → (wValue, x) ∈ ms →
      AddAt Ix Jx x ts v v' → Performs Ix Jx fo (.obj ms) v v'
  | remove {ms : List (Bytes × Json F)} {p : Bytes} {ts : List Bytes} {v v' : Json F} :
      (wOp, .str wRemove) ∈ ms → (wPath, .str p) ∈ ms → Pointer p ts →
      RemoveAt Ix Jx ts v v' → Performs Ix Jx fo (.obj ms) v v'
  | replace {ms : List (Bytes × Json F)} {p : Bytes} {ts : List Bytes} {x v v' : Json F} :
      (wOp, .str wReplace) ∈ ms → (wPath, .str p) ∈ ms → Pointer p ts → (wValue, x) ∈ ms →
      Change Ix (fun _ b => b = x) ts v v' → Performs Ix Jx fo (.obj ms) v v'
  | move {ms : List (Bytes × Json F)} {p q : Bytes} {ts fs : List Bytes} {x v u v' : Json F} :
      (wOp, .str wMove) ∈ ms → (wPath, .str p) ∈ ms → Pointer p ts → (wFrom, .str q) ∈ ms → Pointer q fs →
      ¬ (∃ r, r ≠ [] ∧ ts = fs ++ r) →
      Leads Ix fs v x → RemoveAt Ix Jx fs v u → AddAt Ix Jx x ts u v' → Performs Ix Jx fo (.obj ms) v v'
  | copy {ms : List (Bytes × Json F)} {p q : Bytes} {ts fs : List Bytes} {x v v' : Json F} :
      (wOp, .str wCopy) ∈ ms → (wPath, .str p) ∈ ms → Pointer p ts → (wFrom, .str q) ∈ ms → Pointer q fs →
      Leads Ix fs v x → AddAt Ix Jx x ts v v' → Performs Ix Jx fo (.obj ms) v v'
  | test {ms : List (Bytes × Json F)} {p : Bytes} {ts : List Bytes} {x y v : Json F} :
      (wOp, .str wTest) ∈ ms → (wPath, .str p) ∈ ms → Pointer p ts → (wValue, x) ∈ ms →
      Leads Ix ts v y → eqV fo y x = true → Performs Ix Jx fo (.obj ms) v v

/-- an array index at the end of the pointer of an operation `add` or `remove`, as the library has it: like
`LaxIndex`, and it may begin with zeros -/
def LastIndex (t : Bytes) (i : Nat) : Prop := IntText t i ∧ i < 2 ^ 31

end Spec

/-! ## Splitting -/

theorem lookup_split {t : Bytes} {v : Json F} {ms : List (Bytes × Json F)} (hs : SortedM ms) (h : lookup t ms = some v) :
    ∃ m1 m2, ms = m1 ++ (t, v) :: m2 ∧ (∀ x ∈ m1, x.1 < t) ∧ ∀ x ∈ m2, t < x.1 := by
  obtain ⟨m1, m2, rfl⟩ := List.append_of_mem (lookup_mem h)
  have hp := List.pairwise_append.mp hs
  exact ⟨m1, m2, rfl, fun x hx => hp.2.2 x hx (t, v) (by simp), (List.pairwise_cons.mp hp.2.1).1⟩

theorem sorted_split {t : Bytes} {v : Json F} {m1 m2 : List (Bytes × Json F)} (hs : SortedM (m1 ++ (t, v) :: m2)) :
    (∀ x ∈ m1, x.1 < t) ∧ ∀ x ∈ m2, t < x.1 := by
  have hp := List.pairwise_append.mp hs
  exact ⟨fun x hx => hp.2.2 x hx (t, v) (by simp), (List.pairwise_cons.mp hp.2.1).1⟩

theorem setKey_new {t : Bytes} {x : Json F} : ∀ {m1 m2 : List (Bytes × Json F)}, (∀ m ∈ m1, m.1 < t) → (∀ m ∈ m2, t < m.1) →
    setKey t x (m1 ++ m2) = m1 ++ (t, x) :: m2
  | [], [], _, _ => by simp [setKey]
  | [], (k, v) :: m2, _, h => by
    rw [List.nil_append, setKey_cons, if_pos (h (k, v) (by simp))]; rfl
  | (k, v) :: m1, m2, h, h' => by
    have hk := h (k, v) (by simp)
    rw [List.cons_append, setKey_cons, if_neg (key_asymm hk), if_neg (fun e => by rw [e] at hk; exact key_irrefl _ hk),
      setKey_new (fun m hm => h m (List.mem_cons_of_mem _ hm)) h']
    rfl

theorem sorted_part {t : Bytes} : ∀ {ms : List (Bytes × Json F)}, SortedM ms → lookup t ms = none →
    ∃ m1 m2, ms = m1 ++ m2 ∧ (∀ m ∈ m1, m.1 < t) ∧ ∀ m ∈ m2, t < m.1
  | [], _, _ => ⟨[], [], rfl, by simp, by simp⟩
  | (k, v) :: ms, hs, h => by
    have hs' := List.pairwise_cons.mp hs
    rw [lookup_cons] at h
    by_cases e : t = k
    · rw [if_pos e] at h; cases h
    rw [if_neg e] at h
    rcases key_total t k with hlt | he | hlt
    · refine ⟨[], (k, v) :: ms, rfl, by simp, fun m hm => ?_⟩
      rcases List.mem_cons.mp hm with rfl | hm
      · exact hlt
      · exact key_trans hlt (hs'.1 m hm)
    · exact absurd he e
    · obtain ⟨m1, m2, rfl, h1, h2⟩ := sorted_part hs'.2 h
      refine ⟨(k, v) :: m1, m2, rfl, fun m hm => ?_, h2⟩
      rcases List.mem_cons.mp hm with rfl | hm
      · exact hlt
      · exact h1 m hm

theorem get_split {xs : List (Json F)} {i : Nat} {v : Json F} (h : xs[i]? = some v) :
    ∃ ys zs, xs = ys ++ v :: zs ∧ ys.length = i := by
  obtain ⟨hi, rfl⟩ := List.getElem?_eq_some_iff.mp h
  refine ⟨xs.take i, xs.drop (i + 1), ?_, by simp; omega⟩
  rw [List.getElem_cons_drop, List.take_append_drop]

/-! ## Indices at the end -/

theorem last_bare {t : Bytes} {i : Nat} (h : LastIndex t i) : bareIndex t = .ok i := by
  rw [bareIndex, (arrayIndex_iff (i := i)).mpr ⟨h.1, by have := h.2; omega, by have := h.2; omega⟩]
  simp only
  rw [sizeT_nat (by have := h.2; omega)]

theorem bare_last {t : Bytes} {i n : Nat} (h : bareIndex t = .ok i) (hi : i ≤ n) (hn : n ≤ 2 ^ 63) : LastIndex t i := by
  rw [bareIndex] at h
  cases ha : arrayIndex t with
  | num j =>
    rw [ha] at h
    simp only at h
    injection h with h
    obtain ⟨h1, h2, h3⟩ := arrayIndex_iff.mp ha
    by_cases hj : j < 0
    · rw [sizeT_neg hj h2] at h; omega
    · obtain ⟨k, rfl⟩ := Int.eq_ofNat_of_zero_le (Int.not_lt.mp hj)
      rw [sizeT_nat (by omega)] at h
      subst h
      exact ⟨h1, by omega⟩
  | invalid => rw [ha] at h; cases h
  | range => rw [ha] at h; cases h
  | partly => rw [ha] at h; cases h

theorem last_minus (i : Nat) : ¬ LastIndex [0x2d] i := fun h => intText_minus _ h.1

/-! ## What is done through `at` -/

theorem Spec.Change.upd {f : Json F → Outcome (Json F)} {ts : List Bytes} {v v' : Json F}
    (h : Change LaxIndex (fun a b => f a = .ok b) ts v v') (ho : Ordered v) : atPtrUpd f ts v = .ok v' := by
  induction h with
  | here h => exact h
  | member h ih =>
    rw [Ordered] at ho
    have hsp := sorted_split ho.1
    rw [atPtrUpd, lookup_mid hsp.1]
    simp only
    rw [ih (orderedM_iff.mp ho.2 (_, _) (List.mem_append_right _ List.mem_cons_self)), Outcome.bind_ok, setKey_mid hsp.1]
  | element hi h ih =>
    rw [Ordered, orderedL_iff] at ho
    obtain ⟨h1, h2, h3⟩ := lax_tokenIndex hi
    rw [atPtrUpd, if_neg h3, h2, h1]
    simp [ih (ho _ (by simp))]

theorem upd_change {f : Json F → Outcome (Json F)} : ∀ {ts : List Bytes} {v v' : Json F}, Ordered v → Fits v →
    atPtrUpd f ts v = .ok v' → Change LaxIndex (fun a b => f a = .ok b) ts v v'
  | [], v, v', _, _, h => .here h
  | t :: ts, .obj ms, v', ho, hf, h => by
    rw [atPtrUpd] at h
    cases hl : lookup t ms with
    | none => rw [hl] at h; cases h
    | some w =>
      rw [hl] at h
      have how := ordered_lookup ho hl
      rw [Fits] at hf
      have hfw := fitsM_iff.mp hf _ (lookup_mem hl)
      rw [Ordered] at ho
      obtain ⟨m1, m2, rfl, h1, h2⟩ := lookup_split ho.1 hl
      cases hr : atPtrUpd f ts w with
      | ok w' =>
        simp only [hr, Outcome.bind_ok] at h
        injection h with h
        subst h
        rw [setKey_mid h1]
        exact .member (upd_change how hfw hr)
      | _ => simp [hr] at h
  | t :: ts, .arr xs, v', ho, hf, h => by
    rw [atPtrUpd] at h
    by_cases h1 : t = [0x2d]
    · rw [if_pos h1] at h; cases h
    rw [if_neg h1] at h
    cases h2 : zeroLed t with
    | true => rw [h2] at h; cases h
    | false =>
      rw [h2] at h
      simp only [Bool.false_eq_true, if_false] at h
      cases hi : tokenIndex t with
      | ok i =>
        rw [hi, Outcome.bind_ok] at h
        cases hx : xs[i]? with
        | none => rw [hx] at h; cases h
        | some w =>
          rw [hx] at h
          simp only at h
          rw [Fits] at hf
          have hlt : i < xs.length := (List.getElem?_eq_some_iff.mp hx).1
          have hlax := tokenIndex_lax hi hlt hf.1 h2
          obtain ⟨ys, zs, rfl, rfl⟩ := get_split hx
          rw [Ordered, orderedL_iff] at ho
          cases hr : atPtrUpd f ts w with
          | ok w' =>
            simp only [hr, Outcome.bind_ok] at h
            injection h with h
            subst h
            have e : (ys ++ w :: zs).set ys.length w' = ys ++ w' :: zs := by simp
            rw [e]
            exact .element hlax (upd_change (ho _ (by simp)) (fitsL_iff.mp hf.2 _ (by simp)) hr)
          | _ => simp [hr] at h
      | _ => simp [hi] at h
  | _ :: _, .null, _, _, _, h | _ :: _, .bool _, _, _, _, h | _ :: _, .int _, _, _, _, h
  | _ :: _, .uint _, _, _, _, h | _ :: _, .float _, _, _, _, h | _ :: _, .str _, _, _, _, h => by cases h

theorem Spec.Change.mono {Ix Jx : Bytes → Nat → Prop} {R S : Json F → Json F → Prop} {ts : List Bytes} {v v' : Json F}
    (h : Change Ix R ts v v') (hI : ∀ t i, Ix t i → Jx t i) (hR : ∀ a b, R a b → S a b) : Change Jx S ts v v' := by
  induction h with
  | here h => exact .here (hR _ _ h)
  | member _ ih => exact .member ih
  | element hi _ ih => exact .element (hI _ _ hi) ih

theorem Spec.Change.leads {Ix : Bytes → Nat → Prop} {R : Json F → Json F → Prop} {ts : List Bytes} {v v' : Json F}
    (h : Change Ix R ts v v') : ∃ a b, Leads Ix ts v a ∧ R a b := by
  induction h with
  | here h => exact ⟨_, _, .here _, h⟩
  | member _ ih =>
    obtain ⟨a, b, h1, h2⟩ := ih
    exact ⟨a, b, .member (by simp) h1, h2⟩
  | element hi _ ih =>
    obtain ⟨a, b, h1, h2⟩ := ih
    exact ⟨a, b, .element hi (by simp) h1, h2⟩

/-- inside values with short arrays a strict index is one that the library takes, and the values there
have short arrays -/
theorem Spec.Change.lax {R S : Json F → Json F → Prop} {ts : List Bytes} {v v' : Json F}
    (h : Change StrictIndex R ts v v') (hs : Short v) (hs' : Short v') (ho : Ordered v)
    (hR : ∀ a b, Short a → Short b → Ordered a → R a b → S a b) : Change LaxIndex S ts v v' := by
  induction h with
  | here h => exact .here (hR _ _ hs hs' ho h)
  | member _ ih =>
    rw [Short, shortM_iff] at hs hs'
    rw [Ordered] at ho
    exact .member (ih (hs (_, _) (List.mem_append_right _ List.mem_cons_self))
      (hs' (_, _) (List.mem_append_right _ List.mem_cons_self))
      (orderedM_iff.mp ho.2 (_, _) (List.mem_append_right _ List.mem_cons_self)))
  | element hi _ ih =>
    rw [Short, shortL_iff] at hs hs'
    rw [Ordered, orderedL_iff] at ho
    refine .element (strict_lax hi ?_) (ih (hs.2 _ (by simp)) (hs'.2 _ (by simp)) (ho _ (by simp)))
    have := hs.1
    simp only [List.length_append, List.length_cons] at this
    omega

theorem Spec.Change.short {Ix : Bytes → Nat → Prop} {R : Json F → Json F → Prop} {ts : List Bytes} {v v' : Json F}
    (h : Change Ix R ts v v') (hs : Short v) (hR : ∀ a b, Short a → R a b → Short b) : Short v' := by
  induction h with
  | here h => exact hR _ _ hs h
  | member _ ih =>
    rw [Short, shortM_iff] at hs ⊢
    have := ih (hs (_, _) (List.mem_append_right _ List.mem_cons_self))
    intro x hx
    rcases List.mem_append.mp hx with hx | hx
    · exact hs x (List.mem_append_left _ hx)
    rcases List.mem_cons.mp hx with rfl | hx
    · exact this
    · exact hs x (List.mem_append_right _ (List.mem_cons_of_mem _ hx))
  | element hi _ ih =>
    rw [Short, shortL_iff] at hs ⊢
    have := ih (hs.2 _ (by simp))
    refine ⟨by simpa using hs.1, fun x hx => ?_⟩
    rcases List.mem_append.mp hx with hx | hx
    · exact hs.2 x (List.mem_append_left _ hx)
    rcases List.mem_cons.mp hx with rfl | hx
    · exact this
    · exact hs.2 x (List.mem_append_right _ (List.mem_cons_of_mem _ hx))

theorem Spec.Change.ordered {Ix : Bytes → Nat → Prop} {R : Json F → Json F → Prop} {ts : List Bytes} {v v' : Json F}
    (h : Change Ix R ts v v') (ho : Ordered v) (hR : ∀ a b, Ordered a → R a b → Ordered b) : Ordered v' := by
  induction h with
  | here h => exact hR _ _ ho h
  | member _ ih =>
    have hsp := sorted_split (by rw [Ordered] at ho; exact ho.1)
    rw [← setKey_mid hsp.1]
    refine ordered_setKey ho (ih ?_)
    rw [Ordered, orderedM_iff] at ho
    exact ho.2 (_, _) (List.mem_append_right _ List.mem_cons_self)
  | element hi _ ih =>
    rw [Ordered, orderedL_iff] at ho ⊢
    have := ih (ho _ (by simp))
    intro x hx
    rcases List.mem_append.mp hx with hx | hx
    · exact ho x (List.mem_append_left _ hx)
    rcases List.mem_cons.mp hx with rfl | hx
    · exact this
    · exact ho x (List.mem_append_right _ (List.mem_cons_of_mem _ hx))

theorem leads_ordered {Ix : Bytes → Nat → Prop} {ts : List Bytes} {v w : Json F} (h : Leads Ix ts v w)
    (ho : Ordered v) : Ordered w := by
  induction h with
  | here v => exact ho
  | member hm _ ih => rw [Ordered, orderedM_iff] at ho; exact ih (ho.2 _ hm)
  | element _ hx _ ih => rw [Ordered, orderedL_iff] at ho; exact ih (ho _ (List.mem_of_getElem? hx))

/-! ## The ends of the operations -/

theorem removed_from {t : Bytes} {a b : Json F} (ho : Ordered a) (h : Removed LastIndex t a b) :
    removeFrom t a = .ok b := by
  cases h with
  | member =>
    rw [Ordered] at ho
    have hsp := sorted_split ho.1
    rw [removeFrom, lookup_mid hsp.1]
    simp only
    rw [eraseKey_mid hsp.1]
  | element hi =>
    rw [removeFrom, last_bare hi, Outcome.bind_ok, if_neg (by simp)]
    simp [List.eraseIdx_append_of_length_le]

theorem from_removed {t : Bytes} {a b : Json F} (ho : Ordered a) (hf : Fits a) (h : removeFrom t a = .ok b) :
    Removed LastIndex t a b ∨ isPrimitive a = true ∧ b = a := by
  cases a with
  | obj ms =>
    left
    rw [removeFrom] at h
    rw [Ordered] at ho
    cases hl : lookup t ms with
    | none => rw [hl] at h; cases h
    | some w =>
      rw [hl] at h
      injection h with h
      subst h
      obtain ⟨m1, m2, rfl, h1, h2⟩ := lookup_split ho.1 hl
      rw [eraseKey_mid h1]
      exact .member
  | arr xs =>
    left
    rw [removeFrom] at h
    rw [Fits] at hf
    cases hi : bareIndex t with
    | ok i =>
      rw [hi, Outcome.bind_ok] at h
      by_cases hlt : xs.length ≤ i
      · rw [if_pos hlt] at h; cases h
      rw [if_neg hlt] at h
      injection h with h
      subst h
      have hla := bare_last hi (by omega) hf.1
      obtain ⟨ys, zs, e, rfl⟩ := get_split (List.getElem?_eq_getElem (show i < xs.length by omega))
      rw [e]
      rw [show (ys ++ xs[ys.length] :: zs).eraseIdx ys.length = ys ++ zs by
        simp [List.eraseIdx_append_of_length_le]]
      exact .element hla
    | _ => simp [hi] at h
  | _ =>
    right
    rw [removeFrom] at h
    · injection h with h
      exact ⟨rfl, h.symm⟩
    all_goals simp

theorem added_to {t : Bytes} {x a b : Json F} (ho : Ordered a) (h : Added LastIndex t x a b) : addTo t x a = .ok b := by
  cases h with
  | new h1 h2 => rw [addTo, setKey_new h1 h2]
  | replaced =>
    rw [Ordered] at ho
    rw [addTo, setKey_mid (sorted_split ho.1).1]
  | inserted hi =>
    rw [addTo, if_neg (fun e => by rw [e] at hi; exact last_minus _ hi), last_bare hi, Outcome.bind_ok, if_neg (by simp)]
    simp
  | appended e => rw [addTo, if_pos e]

theorem to_added {t : Bytes} {x a b : Json F} (ho : Ordered a) (hf : Fits a) (h : addTo t x a = .ok b) :
    Added LastIndex t x a b ∨ a = .null ∧ b = .obj [(t, x)] := by
  cases a with
  | null =>
    right
    rw [addTo] at h
    injection h with h
    exact ⟨rfl, h.symm⟩
  | obj ms =>
    left
    rw [addTo] at h
    injection h with h
    subst h
    rw [Ordered] at ho
    cases hl : lookup t ms with
    | none =>
      obtain ⟨m1, m2, rfl, h1, h2⟩ := sorted_part ho.1 hl
      rw [setKey_new h1 h2]
      exact .new h1 h2
    | some w =>
      obtain ⟨m1, m2, rfl, h1, h2⟩ := lookup_split ho.1 hl
      rw [setKey_mid h1]
      exact .replaced
  | arr xs =>
    left
    rw [addTo] at h
    rw [Fits] at hf
    by_cases e : t = [0x2d]
    · rw [if_pos e] at h
      injection h with h
      subst h
      exact .appended e
    rw [if_neg e] at h
    cases hi : bareIndex t with
    | ok i =>
      rw [hi, Outcome.bind_ok] at h
      by_cases hlt : xs.length < i
      · rw [if_pos hlt] at h; cases h
      rw [if_neg hlt] at h
      injection h with h
      subst h
      have hla := bare_last hi (by omega) hf.1
      have := Added.inserted (x := x) (xs := xs.take i) (ys := xs.drop i)
        (show LastIndex t (xs.take i).length by rw [List.length_take, Nat.min_eq_left (by omega)]; exact hla)
      rw [List.take_append_drop] at this
      simpa using this
    | _ => simp [hi] at h
  | _ => rw [addTo] at h; cases h

theorem strict_last {t : Bytes} {i : Nat} (h : StrictIndex t i) (hi : i < 2 ^ 31) : LastIndex t i :=
  ⟨(strict_lax h hi).1, hi⟩

theorem removed_ordered {Jx : Bytes → Nat → Prop} {t : Bytes} {a b : Json F} (ho : Ordered a) (h : Removed Jx t a b) :
    Ordered b := by
  cases h with
  | member =>
    have hsp := sorted_split (by rw [Ordered] at ho; exact ho.1)
    rw [← eraseKey_mid hsp.1]
    exact ordered_eraseKey ho
  | element =>
    rw [Ordered, orderedL_iff] at ho ⊢
    intro x hx
    refine ho x ?_
    rcases List.mem_append.mp hx with hx | hx
    · exact List.mem_append_left _ hx
    · exact List.mem_append_right _ (List.mem_cons_of_mem _ hx)

theorem removed_short {Jx : Bytes → Nat → Prop} {t : Bytes} {a b : Json F} (hs : Short a) (h : Removed Jx t a b) :
    Short b := by
  cases h with
  | member =>
    rw [Short, shortM_iff] at hs ⊢
    intro x hx
    refine hs x ?_
    rcases List.mem_append.mp hx with hx | hx
    · exact List.mem_append_left _ hx
    · exact List.mem_append_right _ (List.mem_cons_of_mem _ hx)
  | element =>
    rw [Short, shortL_iff] at hs ⊢
    refine ⟨by have := hs.1; simp only [List.length_append, List.length_cons] at this ⊢; omega, fun x hx => ?_⟩
    refine hs.2 x ?_
    rcases List.mem_append.mp hx with hx | hx
    · exact List.mem_append_left _ hx
    · exact List.mem_append_right _ (List.mem_cons_of_mem _ hx)

theorem added_ordered {Jx : Bytes → Nat → Prop} {t : Bytes} {x a b : Json F} (hx : Ordered x) (ho : Ordered a)
    (h : Added Jx t x a b) : Ordered b := by
  cases h with
  | new h1 h2 => rw [← setKey_new h1 h2]; exact ordered_setKey ho hx
  | replaced =>
    have hsp := sorted_split (by rw [Ordered] at ho; exact ho.1)
    rw [← setKey_mid hsp.1]
    exact ordered_setKey ho hx
  | inserted =>
    rw [Ordered, orderedL_iff] at ho ⊢
    intro y hy
    rcases List.mem_append.mp hy with hy | hy
    · exact ho y (List.mem_append_left _ hy)
    rcases List.mem_cons.mp hy with rfl | hy
    · exact hx
    · exact ho y (List.mem_append_right _ hy)
  | appended =>
    rw [Ordered, orderedL_iff] at ho ⊢
    intro y hy
    rcases List.mem_append.mp hy with hy | hy
    · exact ho y hy
    · rw [List.mem_singleton.mp hy]; exact hx

theorem removed_last {t : Bytes} {a b : Json F} (hs : Short a) (h : Removed StrictIndex t a b) : Removed LastIndex t a b := by
  cases h with
  | member => exact .member
  | element hi =>
    rw [Short] at hs
    refine .element (strict_last hi ?_)
    have := hs.1
    simp only [List.length_append, List.length_cons] at this
    omega

theorem added_last {t : Bytes} {x a b : Json F} (hs : Short b) (h : Added StrictIndex t x a b) : Added LastIndex t x a b := by
  cases h with
  | new h1 h2 => exact .new h1 h2
  | replaced => exact .replaced
  | inserted hi =>
    rw [Short] at hs
    refine .inserted (strict_last hi ?_)
    have := hs.1
    simp only [List.length_append, List.length_cons] at this
    omega
  | appended e => exact .appended e

/-! ## The operations -/

theorem removeAt_run {ts : List Bytes} {v v' : Json F} (h : RemoveAt LaxIndex LastIndex ts v v') (ho : Ordered v) :
    operationRemove ts v = .ok v' := by
  cases h with
  | @part ts t v v' h =>
    have e : operationRemove (ts ++ [t]) v = atPtrUpd (removeFrom t) ts v := by
      cases hP : ts ++ [t] with
      | nil => simp at hP
      | cons u us => rw [operationRemove, ← hP]; simp
    rw [e]
    exact (change_in h ho).upd ho
where
  change_in {ts : List Bytes} {t : Bytes} {v v' : Json F} (h : Change LaxIndex (Removed LastIndex t) ts v v')
      (ho : Ordered v) : Change LaxIndex (fun a b => removeFrom t a = .ok b) ts v v' := by
    induction h with
    | here h => exact .here (removed_from ho h)
    | member _ ih =>
      rw [Ordered, orderedM_iff] at ho
      exact .member (ih (ho.2 (_, _) (List.mem_append_right _ List.mem_cons_self)))
    | element hi _ ih =>
      rw [Ordered, orderedL_iff] at ho
      exact .element hi (ih (ho _ (by simp)))

theorem added_in {ts : List Bytes} {t : Bytes} {x v v' : Json F} (h : Change LaxIndex (Added LastIndex t x) ts v v')
    (ho : Ordered v) : Change LaxIndex (fun a b => addTo t x a = .ok b) ts v v' := by
  induction h with
  | here h => exact .here (added_to ho h)
  | member _ ih =>
    rw [Ordered, orderedM_iff] at ho
    exact .member (ih (ho.2 (_, _) (List.mem_append_right _ List.mem_cons_self)))
  | element hi _ ih =>
    rw [Ordered, orderedL_iff] at ho
    exact .element hi (ih (ho _ (by simp)))

/-- where the parent is there, adding is done through `at` -/
theorem add_at {ts : List Bytes} {t : Bytes} {x v w : Json F} (h : atPtr ts v = .ok w) :
    operationAdd (ts ++ [t]) x v = atPtrUpd (addTo t x) ts v := by
  rw [← index_at _ h]
  cases ts with
  | nil => simp [operationAdd]
  | cons u us =>
    rw [List.cons_append, operationAdd, if_neg (by simp), ← List.cons_append, List.dropLast_concat, List.getLastD_concat]
    have := atPtr_append [u] us v
    rw [List.singleton_append, h] at this
    cases hu : atPtr [u] v with
    | ok a => simp
    | _ => rw [hu] at this; simp at this

theorem addAt_run {ts : List Bytes} {x v v' : Json F} (h : AddAt LaxIndex LastIndex x ts v v') (ho : Ordered v) :
    operationAdd ts x v = .ok v' := by
  cases h with
  | whole => rfl
  | @part ts t v v' h =>
    obtain ⟨a, b, hl, _⟩ := h.leads
    rw [add_at (hl.at ho)]
    exact (added_in h ho).upd ho

theorem removeAt_lax {ts : List Bytes} {v v' : Json F} (h : RemoveAt StrictIndex StrictIndex ts v v') (ho : Ordered v)
    (hs : Short v) : RemoveAt LaxIndex LastIndex ts v v' ∧ Ordered v' ∧ Short v' := by
  cases h with
  | part h =>
    have hs' := h.short hs fun a b ha hr => removed_short ha hr
    exact ⟨.part (h.lax hs hs' ho fun a b ha _ _ hr => removed_last ha hr),
      h.ordered ho fun a b ha hr => removed_ordered ha hr, hs'⟩

theorem addAt_lax {ts : List Bytes} {x v v' : Json F} (h : AddAt StrictIndex StrictIndex x ts v v') (ho : Ordered v)
    (hs : Short v) (hs' : Short v') (hx : Ordered x) : AddAt LaxIndex LastIndex x ts v v' ∧ Ordered v' := by
  cases h with
  | whole => exact ⟨.whole v, hx⟩
  | part h =>
    exact ⟨.part (h.lax hs hs' ho fun a b _ hb _ hr => added_last hb hr),
      h.ordered ho fun a b ha hr => added_ordered hx ha hr⟩

theorem getString_of {k s : Bytes} {ms : List (Bytes × Json F)} (hs : SortedM ms) (h : (k, .str s) ∈ ms) :
    getString k ms = .ok s := by rw [getString, (lookup_mem_iff hs).mpr h]

theorem getValue_of {k : Bytes} {x : Json F} {ms : List (Bytes × Json F)} (hs : SortedM ms) (h : (k, x) ∈ ms) :
    getValue k ms = .ok x := by rw [getValue, (lookup_mem_iff hs).mpr h]

theorem pointer_split {s : Bytes} {ts : List Bytes} (h : Pointer s ts) : split s = .ok ts := by
  rw [h.eq_text]; exact split_ptrToString ts

theorem step_run (fo : FloatOrder F L) {o v v' : Json F} (h : Performs LaxIndex LastIndex fo o v v') (hoo : Ordered o)
    (ho : Ordered v) : patchStep fo v o = .ok v' := by
  cases h with
  | add h1 h2 h3 h4 h5 =>
    rw [Ordered] at hoo
    rw [patchStep, getString_of hoo.1 h1, Outcome.bind_ok, getString_of hoo.1 h2, Outcome.bind_ok, pointer_split h3,
      Outcome.bind_ok, if_pos rfl, getValue_of hoo.1 h4, Outcome.bind_ok, addAt_run h5 ho]
  | remove h1 h2 h3 h5 =>
    rw [Ordered] at hoo
    rw [patchStep, getString_of hoo.1 h1, Outcome.bind_ok, getString_of hoo.1 h2, Outcome.bind_ok, pointer_split h3,
      Outcome.bind_ok, if_neg (by decide), if_pos rfl, removeAt_run h5 ho]
  | replace h1 h2 h3 h4 h5 =>
    rw [Ordered] at hoo
    rw [patchStep, getString_of hoo.1 h1, Outcome.bind_ok, getString_of hoo.1 h2, Outcome.bind_ok, pointer_split h3,
      Outcome.bind_ok, if_neg (by decide), if_neg (by decide), if_pos rfl, getValue_of hoo.1 h4]
    exact (h5.mono (fun _ _ h => h) fun a b e => by rw [e]).upd ho
  | @move ms p q ts fs x v u v' h1 h2 h3 h4 h5 _ h6 h7 h8 =>
    rw [Ordered] at hoo
    have hu : Ordered u := by
      cases h7 with | part h => exact h.ordered ho fun a b ha hr => removed_ordered ha hr
    rw [patchStep, getString_of hoo.1 h1, Outcome.bind_ok, getString_of hoo.1 h2, Outcome.bind_ok, pointer_split h3,
      Outcome.bind_ok, if_neg (by decide), if_neg (by decide), if_neg (by decide), if_pos rfl, getString_of hoo.1 h4,
      Outcome.bind_ok, pointer_split h5, Outcome.bind_ok, h6.at ho, Outcome.bind_ok, removeAt_run h7 ho, Outcome.bind_ok,
      addAt_run h8 hu]
  | copy h1 h2 h3 h4 h5 h6 h8 =>
    rw [Ordered] at hoo
    rw [patchStep, getString_of hoo.1 h1, Outcome.bind_ok, getString_of hoo.1 h2, Outcome.bind_ok, pointer_split h3,
      Outcome.bind_ok, if_neg (by decide), if_neg (by decide), if_neg (by decide), if_neg (by decide), if_pos rfl,
      getString_of hoo.1 h4,
      Outcome.bind_ok, pointer_split h5, Outcome.bind_ok, h6.at ho, Outcome.bind_ok, addAt_run h8 ho]
  | test h1 h2 h3 h4 h5 h6 =>
    rw [Ordered] at hoo
    rw [patchStep, getString_of hoo.1 h1, Outcome.bind_ok, getString_of hoo.1 h2, Outcome.bind_ok, pointer_split h3,
      Outcome.bind_ok, if_neg (by decide), if_neg (by decide), if_neg (by decide), if_neg (by decide), if_neg (by decide),
      if_pos rfl, operationTest, h5.at ho]
    simp only
    rw [getValue_of hoo.1 h4, Outcome.bind_ok, if_pos h6]

theorem performs_lax (fo : FloatOrder F L) {o v v' : Json F} (h : Performs StrictIndex StrictIndex fo o v v') (hoo : Ordered o)
    (ho : Ordered v) (hs : Short v) (hs' : Short v') : Performs LaxIndex LastIndex fo o v v' ∧ Ordered v' := by
  cases h with
  | add h1 h2 h3 h4 h5 =>
    rw [Ordered, orderedM_iff] at hoo
    obtain ⟨h6, h7⟩ := addAt_lax h5 ho hs hs' (hoo.2 _ h4)
    exact ⟨.add h1 h2 h3 h4 h6, h7⟩
  | remove h1 h2 h3 h5 =>
    obtain ⟨h6, h7, _⟩ := removeAt_lax h5 ho hs
    exact ⟨.remove h1 h2 h3 h6, h7⟩
  | replace h1 h2 h3 h4 h5 =>
    rw [Ordered, orderedM_iff] at hoo
    refine ⟨.replace h1 h2 h3 h4 (h5.lax hs hs' ho fun a b _ _ _ h => h), ?_⟩
    exact h5.ordered ho fun a b _ e => by rw [e]; exact hoo.2 _ h4
  | move h1 h2 h3 h4 h5 hp h6 h7 h8 =>
    obtain ⟨h9, h10, h11⟩ := removeAt_lax h7 ho hs
    obtain ⟨h12, h13⟩ := addAt_lax h8 h10 h11 hs' (leads_ordered h6 ho)
    exact ⟨.move h1 h2 h3 h4 h5 hp (h6.lax hs) h9 h12, h13⟩
  | copy h1 h2 h3 h4 h5 h6 h8 =>
    obtain ⟨h12, h13⟩ := addAt_lax h8 ho hs hs' (leads_ordered h6 ho)
    exact ⟨.copy h1 h2 h3 h4 h5 (h6.lax hs) h12, h13⟩
  | test h1 h2 h3 h4 h5 h6 => exact ⟨.test h1 h2 h3 h4 (h5.lax hs) h6, ho⟩

end Verif.Json
