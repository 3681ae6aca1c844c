import Verif.Json.PatchLemmas
import Verif.Json.ChangeLemmas

/-!
# Lemmas for flattening JSON values
-/

namespace Verif.Json
open Spec

variable {F : Type}

namespace Spec

/-- a pointer leads to a value that is no object and no array -/
def Leaf (v : Json F) (P : List Bytes) (x : Json F) : Prop := Leads StrictIndex P v x ∧ isPrimitive x = true

mutual
/-- no object and no array is empty -/
def Full : Json F → Prop
  | .arr xs => xs ≠ [] ∧ FullL xs
  | .obj ms => ms ≠ [] ∧ FullM ms
  | .null | .bool _ | .int _ | .uint _ | .float _ | .str _ => True
def FullL : List (Json F) → Prop
  | [] => True
  | v :: vs => Full v ∧ FullL vs
def FullM : List (Bytes × Json F) → Prop
  | [] => True
  | (_, v) :: ms => Full v ∧ FullM ms
end

/-- an object or array that is not empty -/
def Deep (v : Json F) : Prop := (∃ x xs, v = .arr (x :: xs)) ∨ ∃ m ms, v = .obj (m :: ms)

/-- a name that comes before the name `0` of the value `v`, in the order of the names that flattening gives -/
def Before (k : Bytes) (v : Json F) : Prop :=
  k = [] ∨ (∃ c r, k = c :: r ∧ c < 0x30 ∧ c ≠ 0x2f) ∨ Deep v ∧ ∃ c r, k = 0x30 :: c :: r ∧ c < 0x2f

mutual
/-- an object that has a member `0` has one with a name that comes before it -/
def Named : Json F → Prop
  | .arr xs => NamedL xs
  | .obj ms => (∀ x, ([0x30], x) ∈ ms → ∃ k y, (k, y) ∈ ms ∧ Before k x) ∧ NamedM ms
  | .null | .bool _ | .int _ | .uint _ | .float _ | .str _ => True
def NamedL : List (Json F) → Prop
  | [] => True
  | v :: vs => Named v ∧ NamedL vs
def NamedM : List (Bytes × Json F) → Prop
  | [] => True
  | (_, v) :: ms => Named v ∧ NamedM ms
end

end Spec

theorem fullL_iff {xs : List (Json F)} : FullL xs ↔ ∀ x ∈ xs, Full x := by
  induction xs with
  | nil => simp [FullL]
  | cons x xs ih => rw [FullL, ih]; simp

theorem fullM_iff {ms : List (Bytes × Json F)} : FullM ms ↔ ∀ x ∈ ms, Full x.2 := by
  induction ms with
  | nil => simp [FullM]
  | cons x xs ih => obtain ⟨k, v⟩ := x; rw [FullM, ih]; simp

theorem namedL_iff {xs : List (Json F)} : NamedL xs ↔ ∀ x ∈ xs, Named x := by
  induction xs with
  | nil => simp [NamedL]
  | cons x xs ih => rw [NamedL, ih]; simp

theorem namedM_iff {ms : List (Bytes × Json F)} : NamedM ms ↔ ∀ x ∈ ms, Named x.2 := by
  induction ms with
  | nil => simp [NamedM]
  | cons x xs ih => obtain ⟨k, v⟩ := x; rw [NamedM, ih]; simp

/-! ## Leaves -/

theorem Leaf.member {ms : List (Bytes × Json F)} {k : Bytes} {a x : Json F} {P : List Bytes} (h : (k, a) ∈ ms)
    (hl : Leaf a P x) : Leaf (.obj ms) (k :: P) x := ⟨.member h hl.1, hl.2⟩

theorem Leaf.element {xs : List (Json F)} {i : Nat} {a x : Json F} {P : List Bytes} (h : xs[i]? = some a)
    (hl : Leaf a P x) : Leaf (.arr xs) (toStr i :: P) x := ⟨.element (i := i) (by rw [StrictIndex, toStr_eq]) h hl.1, hl.2⟩

theorem Leaf.obj_inv {ms : List (Bytes × Json F)} {x : Json F} {P : List Bytes} (h : Leaf (.obj ms) P x) :
    ∃ k a Q, P = k :: Q ∧ (k, a) ∈ ms ∧ Leaf a Q x := by
  obtain ⟨h1, h2⟩ := h
  cases h1 with
  | here => cases h2
  | member hm hl => exact ⟨_, _, _, rfl, hm, hl, h2⟩

theorem Leaf.arr_inv {xs : List (Json F)} {x : Json F} {P : List Bytes} (h : Leaf (.arr xs) P x) :
    ∃ i a Q, P = toStr i :: Q ∧ xs[i]? = some a ∧ Leaf a Q x := by
  obtain ⟨h1, h2⟩ := h
  cases h1 with
  | here => cases h2
  | element hi hx hl => exact ⟨_, _, _, by rw [StrictIndex] at hi; rw [hi, toStr_eq], hx, hl, h2⟩

mutual
theorem Full.leaf : ∀ {v : Json F}, Full v → ∃ P x, Leaf v P x
  | .arr [], h => by rw [Full] at h; exact absurd rfl h.1
  | .arr (v :: vs), h => by
    rw [Full, FullL] at h
    obtain ⟨P, x, hl⟩ := Full.leaf h.2.1
    exact ⟨toStr 0 :: P, x, Leaf.element (by simp) hl⟩
  | .obj [], h => by rw [Full] at h; exact absurd rfl h.1
  | .obj ((k, v) :: ms), h => by
    rw [Full, FullM] at h
    obtain ⟨P, x, hl⟩ := Full.leaf h.2.1
    exact ⟨k :: P, x, Leaf.member (by simp) hl⟩
  | .null, _ | .bool _, _ | .int _, _ | .uint _, _ | .float _, _ | .str _, _ => ⟨[], _, .here _, rfl⟩
end

/-! ## A value seen only through some of its leaves -/

mutual
/-- the value with only the leaves for which `d` holds, as far as it has been made -/
def restr (d : List Bytes → Bool) : Json F → Option (Json F)
  | .arr xs =>
    match restrL d 0 xs with
    | [] => none
    | ys => some (.arr ys)
  | .obj ms =>
    match restrM d ms with
    | [] => none
    | ns => some (.obj ns)
  | v => if d [] then some v else none
def restrL (d : List Bytes → Bool) (i : Nat) : List (Json F) → List (Json F)
  | [] => []
  | x :: xs =>
    match restr (fun Q => d (toStr i :: Q)) x, restrL d (i + 1) xs with
    | none, [] => []
    | o, ys => o.getD .null :: ys
def restrM (d : List Bytes → Bool) : List (Bytes × Json F) → List (Bytes × Json F)
  | [] => []
  | (k, x) :: ms =>
    match restr (fun Q => d (k :: Q)) x with
    | none => restrM d ms
    | some y => (k, y) :: restrM d ms
end

theorem restr_arr (d : List Bytes → Bool) (xs : List (Json F)) :
    restr d (.arr xs) = if restrL d 0 xs = [] then none else some (.arr (restrL d 0 xs)) := by
  rw [restr]
  cases restrL d 0 xs <;> simp

theorem restr_obj (d : List Bytes → Bool) (ms : List (Bytes × Json F)) :
    restr d (.obj ms) = if restrM d ms = [] then none else some (.obj (restrM d ms)) := by
  rw [restr]
  cases restrM d ms <;> simp

theorem restr_prim (d : List Bytes → Bool) {v : Json F} (h : isPrimitive v = true) :
    restr d v = if d [] then some v else none := by
  cases v <;> first | (simp [restr]; done) | cases h

theorem restrL_cons (d : List Bytes → Bool) (i : Nat) (x : Json F) (xs : List (Json F)) :
    restrL d i (x :: xs) =
      if restr (fun Q => d (toStr i :: Q)) x = none ∧ restrL d (i + 1) xs = [] then []
      else (restr (fun Q => d (toStr i :: Q)) x).getD .null :: restrL d (i + 1) xs := by
  rw [restrL]
  cases restr (fun Q => d (toStr i :: Q)) x <;> cases restrL d (i + 1) xs <;> simp

theorem toStr_inj {i j : Nat} (h : toStr i = toStr j) : i = j := by
  have := congrArg decVal h
  rw [toStr_eq, toStr_eq, decVal_eq, decVal_eq, decimal_digits, decimal_digits] at this
  exact this

/-! Whether there is anything to be seen -/

mutual
theorem restr_none (d : List Bytes → Bool) : ∀ (v : Json F), Full v →
    (restr d v = none ↔ ∀ P x, Leaf v P x → d P = false)
  | .arr xs, h => by
    rw [Full] at h
    rw [restr_arr]
    have := restrL_nil d xs 0 h.2
    constructor
    · intro hn P x hl
      obtain ⟨i, a, Q, rfl, hx, hl⟩ := Leaf.arr_inv hl
      have hn' : restrL d 0 xs = [] := by
        by_contra hc
        rw [if_neg hc] at hn
        cases hn
      have := this.mp hn' i a hx Q x hl
      simpa using this
    · intro hall
      rw [if_pos]
      refine this.mpr fun i a hx Q x hl => ?_
      have := hall _ x (Leaf.element hx hl)
      simpa using this
  | .obj ms, h => by
    rw [Full] at h
    rw [restr_obj]
    have := restrM_nil d ms h.2
    constructor
    · intro hn P x hl
      obtain ⟨k, a, Q, rfl, hx, hl⟩ := Leaf.obj_inv hl
      have hn' : restrM d ms = [] := by
        by_contra hc
        rw [if_neg hc] at hn
        cases hn
      exact this.mp hn' k a hx Q x hl
    · intro hall
      rw [if_pos]
      exact this.mpr fun k a hx Q x hl => hall _ x (Leaf.member hx hl)
  | .null, _ | .bool _, _ | .int _, _ | .uint _, _ | .float _, _ | .str _, _ => by
    rw [restr_prim d rfl]
    constructor
    · intro h P x hl
      obtain ⟨h1, _⟩ := hl
      cases h1
      cases hd : d [] with
      | false => rfl
      | true => rw [hd] at h; cases h
    · intro h
      rw [h [] _ ⟨.here _, rfl⟩]; rfl
theorem restrL_nil (d : List Bytes → Bool) : ∀ (xs : List (Json F)) (i : Nat), FullL xs →
    (restrL d i xs = [] ↔ ∀ j a, xs[j]? = some a → ∀ P x, Leaf a P x → d (toStr (i + j) :: P) = false)
  | [], i, _ => by simp [restrL]
  | v :: vs, i, h => by
    rw [FullL] at h
    have h1 := restr_none (fun Q => d (toStr i :: Q)) v h.1
    have h2 := restrL_nil d vs (i + 1) h.2
    rw [restrL_cons]
    constructor
    · intro hn
      have hc : restr (fun Q => d (toStr i :: Q)) v = none ∧ restrL d (i + 1) vs = [] := by
        by_contra hc
        rw [if_neg hc] at hn
        cases hn
      intro j a hx P x hl
      cases j with
      | zero => simp at hx; subst hx; exact h1.mp hc.1 P x hl
      | succ j =>
        simp at hx
        have := h2.mp hc.2 j a hx P x hl
        rw [show i + 1 + j = i + (j + 1) by omega] at this
        exact this
    · intro hall
      rw [if_pos]
      refine ⟨h1.mpr fun P x hl => hall 0 v rfl P x hl, h2.mpr fun j a hx P x hl => ?_⟩
      rw [show i + 1 + j = i + (j + 1) by omega]
      exact hall (j + 1) a (by simpa using hx) P x hl
theorem restrM_nil (d : List Bytes → Bool) : ∀ (ms : List (Bytes × Json F)), FullM ms →
    (restrM d ms = [] ↔ ∀ k a, (k, a) ∈ ms → ∀ P x, Leaf a P x → d (k :: P) = false)
  | [], _ => by simp [restrM]
  | (k, v) :: ms, h => by
    rw [FullM] at h
    have h1 := restr_none (fun Q => d (k :: Q)) v h.1
    have h2 := restrM_nil d ms h.2
    rw [restrM]
    constructor
    · intro hn
      cases hr : restr (fun Q => d (k :: Q)) v with
      | some y => rw [hr] at hn; cases hn
      | none =>
        rw [hr] at hn
        intro l a hx P x hl
        rcases List.mem_cons.mp hx with hx | hx
        · cases hx; exact h1.mp hr P x hl
        · exact h2.mp hn l a hx P x hl
    · intro hall
      rw [h1.mpr fun P x hl => hall k v List.mem_cons_self P x hl]
      exact h2.mpr fun l a hx => hall l a (List.mem_cons_of_mem _ hx)
end

mutual
theorem restr_congr {d d' : List Bytes → Bool} : ∀ (v : Json F),
    (∀ P x, Leaf v P x → d P = d' P) → restr d v = restr d' v
  | .arr xs, h => by
    rw [restr_arr, restr_arr, restrL_congr (d := d) (d' := d') xs 0 fun j a hx P x hl => by
      rw [Nat.zero_add]; exact h _ x (Leaf.element hx hl)]
  | .obj ms, h => by
    rw [restr_obj, restr_obj, restrM_congr (d := d) (d' := d') ms fun k a hx P x hl => h _ x (Leaf.member hx hl)]
  | .null, h | .bool _, h | .int _, h | .uint _, h | .float _, h | .str _, h => by
    rw [restr_prim d rfl, restr_prim d' rfl, h [] _ ⟨.here _, rfl⟩]
theorem restrL_congr {d d' : List Bytes → Bool} : ∀ (xs : List (Json F)) (i : Nat),
    (∀ j a, xs[j]? = some a → ∀ P x, Leaf a P x → d (toStr (i + j) :: P) = d' (toStr (i + j) :: P)) →
    restrL d i xs = restrL d' i xs
  | [], _, _ => by simp [restrL]
  | v :: vs, i, h => by
    rw [restrL_cons, restrL_cons, restr_congr (d := fun Q => d (toStr i :: Q)) (d' := fun Q => d' (toStr i :: Q)) v fun P x hl => h 0 v rfl P x hl,
      restrL_congr (d := d) (d' := d') vs (i + 1) fun j a hx P x hl => by
        rw [show i + 1 + j = i + (j + 1) by omega]
        exact h (j + 1) a (by simpa using hx) P x hl]
theorem restrM_congr {d d' : List Bytes → Bool} : ∀ (ms : List (Bytes × Json F)),
    (∀ k a, (k, a) ∈ ms → ∀ P x, Leaf a P x → d (k :: P) = d' (k :: P)) → restrM d ms = restrM d' ms
  | [], _ => by simp [restrM]
  | (k, v) :: ms, h => by
    rw [restrM, restrM, restr_congr v fun P x hl => h k v List.mem_cons_self P x hl,
      restrM_congr ms fun l a hx => h l a (List.mem_cons_of_mem _ hx)]
end

mutual
theorem restr_all {d : List Bytes → Bool} : ∀ (v : Json F), Full v → (∀ P x, Leaf v P x → d P = true) → restr d v = some v
  | .arr xs, hf, h => by
    rw [Full] at hf
    rw [restr_arr, restrL_all xs 0 hf.2 fun j a hx P x hl => by rw [Nat.zero_add]; exact h _ x (Leaf.element hx hl),
      if_neg hf.1]
  | .obj ms, hf, h => by
    rw [Full] at hf
    rw [restr_obj, restrM_all ms hf.2 fun k a hx P x hl => h _ x (Leaf.member hx hl), if_neg hf.1]
  | .null, _, h | .bool _, _, h | .int _, _, h | .uint _, _, h | .float _, _, h | .str _, _, h => by
    rw [restr_prim d rfl, h [] _ ⟨.here _, rfl⟩]; rfl
theorem restrL_all {d : List Bytes → Bool} : ∀ (xs : List (Json F)) (i : Nat), FullL xs →
    (∀ j a, xs[j]? = some a → ∀ P x, Leaf a P x → d (toStr (i + j) :: P) = true) → restrL d i xs = xs
  | [], _, _, _ => by simp [restrL]
  | v :: vs, i, hf, h => by
    rw [FullL] at hf
    rw [restrL_cons, restr_all (d := fun Q => d (toStr i :: Q)) v hf.1 fun P x hl => h 0 v rfl P x hl,
      restrL_all vs (i + 1) hf.2 fun j a hx P x hl => by
        rw [show i + 1 + j = i + (j + 1) by omega]
        exact h (j + 1) a (by simpa using hx) P x hl]
    simp
theorem restrM_all {d : List Bytes → Bool} : ∀ (ms : List (Bytes × Json F)), FullM ms →
    (∀ k a, (k, a) ∈ ms → ∀ P x, Leaf a P x → d (k :: P) = true) → restrM d ms = ms
  | [], _, _ => by simp [restrM]
  | (k, v) :: ms, hf, h => by
    rw [FullM] at hf
    rw [restrM, restr_all v hf.1 fun P x hl => h k v List.mem_cons_self P x hl,
      restrM_all ms hf.2 fun l a hx => h l a (List.mem_cons_of_mem _ hx)]
end

/-! Members -/

theorem restrM_sub (d : List Bytes → Bool) : ∀ {ms : List (Bytes × Json F)} {x : Bytes × Json F}, x ∈ restrM d ms →
    ∃ a, (x.1, a) ∈ ms
  | [], x, h => by simp [restrM] at h
  | (k, v) :: ms, x, h => by
    rw [restrM] at h
    cases hr : restr (fun Q => d (k :: Q)) v with
    | none =>
      rw [hr] at h
      obtain ⟨a, ha⟩ := restrM_sub d h
      exact ⟨a, List.mem_cons_of_mem _ ha⟩
    | some y =>
      rw [hr] at h
      rcases List.mem_cons.mp h with rfl | h
      · exact ⟨v, List.mem_cons_self⟩
      · obtain ⟨a, ha⟩ := restrM_sub d h
        exact ⟨a, List.mem_cons_of_mem _ ha⟩

theorem restrM_append (d : List Bytes → Bool) : ∀ (ms ns : List (Bytes × Json F)),
    restrM d (ms ++ ns) = restrM d ms ++ restrM d ns
  | [], ns => by simp [restrM]
  | (k, v) :: ms, ns => by
    rw [List.cons_append, restrM, restrM, restrM_append d ms ns]
    cases restr (fun Q => d (k :: Q)) v <;> rfl

/-! Elements -/

/-- an array made at least `n` long -/
def padTo (n : Nat) (ys : List (Json F)) : List (Json F) := ys ++ List.replicate (n - ys.length) .null

theorem restrL_set {d d' : List Bytes → Bool} {x y : Json F} (ws : List (Json F)) : ∀ (zs : List (Json F)) (k : Nat),
    restr (fun Q => d' (toStr (k + zs.length) :: Q)) x = some y →
    (∀ j a, zs[j]? = some a → restr (fun Q => d' (toStr (k + j) :: Q)) a = restr (fun Q => d (toStr (k + j) :: Q)) a) →
    restrL d' (k + zs.length + 1) ws = restrL d (k + zs.length + 1) ws →
    restrL d' k (zs ++ x :: ws) = (padTo (zs.length + 1) (restrL d k (zs ++ x :: ws))).set zs.length y ∧
      (padTo (zs.length + 1) (restrL d k (zs ++ x :: ws)))[zs.length]? =
        some ((restr (fun Q => d (toStr (k + zs.length) :: Q)) x).getD .null)
  | [], k, h1, _, h3 => by
    simp only [List.length_nil, Nat.add_zero] at h1 h3
    rw [List.nil_append, restrL_cons, restrL_cons, h1, h3]
    simp only [reduceCtorEq, false_and, if_false, Option.getD_some, List.length_nil, Nat.add_zero, Nat.zero_add]
    by_cases hc : restr (fun Q => d (toStr k :: Q)) x = none ∧ restrL d (k + 1) ws = []
    · rw [if_pos hc, hc.1, hc.2]; simp [padTo]
    · rw [if_neg hc]; simp [padTo]
  | z :: zs, k, h1, h2, h3 => by
    have e1 : k + 1 + zs.length = k + (z :: zs).length := by rw [List.length_cons]; omega
    have ih := restrL_set (d := d) (d' := d') (x := x) (y := y) ws zs (k + 1) (by rw [e1]; exact h1)
      (fun j a hj => by
        rw [show k + 1 + j = k + (j + 1) by omega]
        exact h2 (j + 1) a (by simpa using hj)) (by rw [e1]; exact h3)
    obtain ⟨ih1, ih2⟩ := ih
    have hz := h2 0 z (by simp)
    rw [Nat.add_zero] at hz
    have hne : restrL d' (k + 1) (zs ++ x :: ws) ≠ [] := by
      rw [ih1]
      intro e
      have := congrArg List.length e
      simp only [padTo, List.length_set, List.length_append, List.length_replicate, List.length_nil] at this
      omega
    rw [List.cons_append, restrL_cons, restrL_cons, hz, if_neg (fun h => hne h.2), ih1, List.length_cons]
    rw [show k + (zs.length + 1) = k + 1 + zs.length by omega, ← ih2]
    by_cases hc : restr (fun Q => d (toStr k :: Q)) z = none ∧ restrL d (k + 1) (zs ++ x :: ws) = []
    · rw [if_pos hc, hc.1, hc.2]
      simp [padTo, List.replicate_succ]
    · rw [if_neg hc]
      simp [padTo]

/-! ## The order of the texts -/

theorem text_lt_cons (t : Bytes) (P Q : List Bytes) :
    ptrToString (t :: P) < ptrToString (t :: Q) ↔ ptrToString P < ptrToString Q := by
  rw [ptrToString_cons, ptrToString_cons]
  have : ∀ (a : Bytes) (u v : Bytes), a ++ u < a ++ v ↔ u < v := by
    intro a u v
    induction a with
    | nil => simp
    | cons c a ih => rw [List.cons_append, List.cons_append, List.cons_lt_cons_iff]; simp [ih]
  rw [this]

theorem toStr_head {i : Nat} (h : 0 < i) : ∃ c r, toStr i = c :: r ∧ 0x30 < c := by
  induction i using Nat.strongRecOn with
  | ind i ih =>
    rw [toStr]
    by_cases h1 : i < 10
    · rw [if_pos h1]; exact ⟨_, _, rfl, by omega⟩
    · rw [if_neg h1]
      obtain ⟨c, r, e, hc⟩ := ih (i / 10) (by omega) (by omega)
      exact ⟨c, r ++ [0x30 + i % 10], by rw [e]; rfl, hc⟩

theorem esc_toStr (i : Nat) : esc (toStr i) = toStr i := by
  have := escape_toStr i
  rwa [escape_eq] at this

theorem text_first_lt {i : Nat} (h : 0 < i) (P Q : List Bytes) : ptrToString (toStr 0 :: P) < ptrToString (toStr i :: Q) := by
  rw [ptrToString_cons, ptrToString_cons, esc_toStr, esc_toStr]
  obtain ⟨c, r, e, hc⟩ := toStr_head h
  rw [e, toStr, if_pos (by omega)]
  simp [List.cons_lt_cons_iff, hc]

theorem text_low_lt {k : Bytes} {a : Json F} (h : Before k a) (P : List Bytes) {Q : List Bytes} (hQ : Deep a → Q ≠ []) :
    ptrToString (k :: P) < ptrToString ([0x30] :: Q) := by
  rw [ptrToString_cons, ptrToString_cons]
  rcases h with rfl | ⟨c, r, rfl, h1, h2⟩ | ⟨hd, c, r, rfl, h1⟩
  · cases P with
    | nil => simp [esc, ptrToString_nil]
    | cons t P => rw [ptrToString_cons]; simp [esc, List.cons_lt_cons_iff]
  · have hc : c ≠ 0x7e := by omega
    simp [esc, List.cons_lt_cons_iff, hc, h2, h1]
  · cases Q with
    | nil => exact absurd rfl (hQ hd)
    | cons t Q =>
      have hc : c ≠ 0x7e := by omega
      have hc' : c ≠ 0x2f := by omega
      rw [ptrToString_cons]
      simp [esc, List.cons_lt_cons_iff, hc, hc', h1]

theorem text_low_ge {k : Bytes} {a : Json F} (h : ¬ Before k a) (hk : k ≠ [0x30]) (P : List Bytes) {Q : List Bytes}
    (hQ : Q ≠ [] → Deep a) : ptrToString ([0x30] :: Q) < ptrToString (k :: P) := by
  rw [ptrToString_cons, ptrToString_cons]
  rw [Before, not_or, not_or] at h
  obtain ⟨h1, h2, h3⟩ := h
  cases k with
  | nil => exact absurd rfl h1
  | cons c k =>
    by_cases hc : c = 0x30
    · subst hc
      cases k with
      | nil => exact absurd rfl hk
      | cons c k =>
        cases Q with
        | nil =>
          rw [ptrToString_nil, esc, esc, if_neg (by omega), if_neg (by omega)]
          by_cases e1 : c = 0x7e
          · simp [esc, e1, List.cons_lt_cons_iff]
          by_cases e2 : c = 0x2f
          · simp [esc, e2, List.cons_lt_cons_iff]
          simp [esc, e1, e2, List.cons_lt_cons_iff]
        | cons t Q =>
          have hc : ¬ c < 0x2f := fun hc => h3 ⟨hQ (by simp), c, k, rfl, hc⟩
          rw [ptrToString_cons, esc, esc, if_neg (by omega), if_neg (by omega)]
          by_cases e1 : c = 0x7e
          · simp [esc, e1, List.cons_lt_cons_iff]
          by_cases e2 : c = 0x2f
          · simp [esc, e2, List.cons_lt_cons_iff]
          have : 0x2f < c := by omega
          simp [esc, e1, e2, List.cons_lt_cons_iff, this]
    · by_cases e1 : c = 0x7e
      · simp [esc, e1, List.cons_lt_cons_iff]
      by_cases e2 : c = 0x2f
      · simp [esc, e2, List.cons_lt_cons_iff]
      have : 0x30 < c := by
        by_contra hlt
        exact h2 ⟨c, k, rfl, by omega, e2⟩
      simp [esc, e1, e2, List.cons_lt_cons_iff, this]

/-! ## One level of a value -/

theorem fillTo_pad {i : Nat} {ys : List (Json F)} (hi : i < 2 ^ 31) (hl : ys.length ≤ 2 ^ 31) :
    fillTo i ys = .ok (padTo (i + 1) ys) := by
  rw [fillTo, padTo]
  by_cases h : ys.length ≤ i
  · rw [if_pos h]
    have hm : ¬ maxSize < ys.length + (i - ys.length + 1) := by rw [maxSize]; omega
    rw [Nat.mod_eq_of_lt (by omega), if_neg hm, show i + 1 - ys.length = i - ys.length + 1 by omega]
  · rw [if_neg h, show i + 1 - ys.length = 0 by omega]
    simp

theorem restrL_length (d : List Bytes → Bool) : ∀ (xs : List (Json F)) (i : Nat), (restrL d i xs).length ≤ xs.length
  | [], _ => by simp [restrL]
  | x :: xs, i => by
    rw [restrL_cons]
    have := restrL_length d xs (i + 1)
    split <;> simp [this]

theorem restrL_get (d : List Bytes → Bool) (x : Json F) (ws : List (Json F)) : ∀ (zs : List (Json F)) (k : Nat),
    (padTo (zs.length + 1) (restrL d k (zs ++ x :: ws)))[zs.length]? =
      some ((restr (fun Q => d (toStr (k + zs.length) :: Q)) x).getD .null)
  | [], k => by
    rw [List.nil_append, restrL_cons, List.length_nil]
    simp only [Nat.add_zero]
    by_cases hc : restr (fun Q => d (toStr k :: Q)) x = none ∧ restrL d (k + 1) ws = []
    · rw [if_pos hc, hc.1]; simp [padTo]
    · rw [if_neg hc]; simp [padTo]
  | z :: zs, k => by
    have ih := restrL_get d x ws zs (k + 1)
    rw [show k + 1 + zs.length = k + (zs.length + 1) by omega] at ih
    rw [List.cons_append, restrL_cons, List.length_cons, ← ih]
    by_cases hc : restr (fun Q => d (toStr k :: Q)) z = none ∧ restrL d (k + 1) (zs ++ x :: ws) = []
    · rw [if_pos hc, hc.2]
      simp [padTo]
    · rw [if_neg hc]
      simp [padTo]

theorem create_null {t : Bytes} (ht : t ≠ [0x30]) (f : Json F → Outcome (Json F)) (ts : List Bytes) :
    createPtrUpd f (t :: ts) .null = createPtrUpd f ts .null >>= fun v' => .ok (.obj [(t, v')]) := by
  rw [createPtrUpd, if_neg ht]

theorem create_zero (f : Json F → Outcome (Json F)) (ts : List Bytes) :
    createPtrUpd f ([0x30] :: ts) .null = createPtrUpd f ts .null >>= fun v' => .ok (.arr [v']) := by
  rw [createPtrUpd, if_pos rfl]

/-- a member, unless a null is made an array of -/
theorem create_member {d : List Bytes → Bool} {t : Bytes} {a : Json F} {m1 m2 : List (Bytes × Json F)}
    (hlt : ∀ m ∈ m1, m.1 < t) (hgt : ∀ m ∈ m2, t < m.1)
    (h : restrM d (m1 ++ (t, a) :: m2) = [] → t ≠ [0x30]) (f : Json F → Outcome (Json F)) (ts : List Bytes) :
    createPtrUpd f (t :: ts) ((restr d (.obj (m1 ++ (t, a) :: m2))).getD .null) =
      createPtrUpd f ts ((restr (fun Q => d (t :: Q)) a).getD .null) >>= fun w =>
        .ok (.obj (restrM d m1 ++ (t, w) :: restrM d m2)) := by
  have k1 : ∀ z ∈ restrM d m1, z.1 < t := fun z hz => by
    obtain ⟨b, hb⟩ := restrM_sub d hz
    exact hlt (z.1, b) hb
  have k2 : ∀ z ∈ restrM d m2, t < z.1 := fun z hz => by
    obtain ⟨b, hb⟩ := restrM_sub d hz
    exact hgt (z.1, b) hb
  rw [restr_obj]
  by_cases hc : restrM d (m1 ++ (t, a) :: m2) = []
  · have ht := h hc
    rw [if_pos hc, Option.getD_none]
    rw [restrM_append, List.append_eq_nil_iff, restrM] at hc
    cases hr : restr (fun Q => d (t :: Q)) a with
    | some y => rw [hr] at hc; simp at hc
    | none =>
      rw [hr] at hc
      have h4 : restrM d m2 = [] := hc.2
      rw [create_null ht, hc.1, h4]
      rfl
  · rw [if_neg hc, Option.getD_some, createPtrUpd, restrM_append, restrM]
    cases hr : restr (fun Q => d (t :: Q)) a with
    | some y =>
      simp only
      rw [lookup_mid k1]
      simp only [Option.getD_some, setKey_mid k1]
    | none =>
      simp only
      have : lookup t (restrM d m1 ++ restrM d m2) = none := by
        rw [lookup_none_iff]
        intro z hz e
        rcases List.mem_append.mp hz with hz | hz
        · have := k1 z hz; rw [e] at this; exact key_irrefl _ this
        · have := k2 z hz; rw [e] at this; exact key_irrefl _ this
      rw [this]
      simp only [Option.getD_none, setKey_new k1 k2]

/-- an element, unless a null is made an object of -/
theorem create_element {d : List Bytes → Bool} {a : Json F} {zs ws : List (Json F)} (hl : (zs ++ a :: ws).length ≤ 2 ^ 31)
    (h : restrL d 0 (zs ++ a :: ws) = [] → zs = []) (f : Json F → Outcome (Json F)) (ts : List Bytes) :
    createPtrUpd f (toStr zs.length :: ts) ((restr d (.arr (zs ++ a :: ws))).getD .null) =
      createPtrUpd f ts ((restr (fun Q => d (toStr zs.length :: Q)) a).getD .null) >>= fun w =>
        .ok (.arr ((padTo (zs.length + 1) (restrL d 0 (zs ++ a :: ws))).set zs.length w)) := by
  have hi31 : zs.length < 2 ^ 31 := by rw [List.length_append, List.length_cons] at hl; omega
  have g := restrL_get d a ws zs 0
  rw [Nat.zero_add] at g
  rw [restr_arr]
  by_cases hc : restrL d 0 (zs ++ a :: ws) = []
  · rw [if_pos hc, Option.getD_none]
    have hz := h hc
    subst hz
    rw [hc] at g
    have hr : (restr (fun Q => d (toStr ([] : List (Json F)).length :: Q)) a).getD .null = .null := by
      simpa [padTo] using g.symm
    have e0 : toStr ([] : List (Json F)).length = [0x30] := by rw [List.length_nil, toStr, if_pos (by omega)]
    rw [hr, e0, create_zero, hc]
    simp [padTo]
  · rw [if_neg hc, Option.getD_some, createPtrUpd, tokenIndex_toStr hi31, Outcome.bind_ok,
      fillTo_pad hi31 (Nat.le_trans (restrL_length d _ 0) hl), Outcome.bind_ok, g]

/-! ## One leaf more -/

/-- on the way to a leaf a null is made an array of, though it should be an object -/
inductive Bad : (List Bytes → Bool) → Json F → List Bytes → Prop
  | zero {d : List Bytes → Bool} {ms : List (Bytes × Json F)} {a : Json F} {ts : List Bytes} :
      ([0x30], a) ∈ ms → restrM d ms = [] → Bad d (.obj ms) ([0x30] :: ts)
  | member {d : List Bytes → Bool} {ms : List (Bytes × Json F)} {t : Bytes} {a : Json F} {ts : List Bytes} :
      (t, a) ∈ ms → Bad (fun Q => d (t :: Q)) a ts → Bad d (.obj ms) (t :: ts)
  | element {d : List Bytes → Bool} {xs : List (Json F)} {i : Nat} {a : Json F} {ts : List Bytes} :
      xs[i]? = some a → Bad (fun Q => d (toStr i :: Q)) a ts → Bad d (.arr xs) (toStr i :: ts)

/-- there is an array where there should be an object -/
inductive Wrong : Json F → Json F → Prop
  | here (ys : List (Json F)) (ms : List (Bytes × Json F)) : Wrong (.arr ys) (.obj ms)
  | member {ns ms : List (Bytes × Json F)} {t : Bytes} {w a : Json F} :
      lookup t ns = some w → (t, a) ∈ ms → Wrong w a → Wrong (.obj ns) (.obj ms)
  | element {ys xs : List (Json F)} {i : Nat} {w a : Json F} :
      ys[i]? = some w → xs[i]? = some a → Wrong w a → Wrong (.arr ys) (.arr xs)

theorem first_element {d : List Bytes → Bool} {xs : List (Json F)} {i : Nat} {ts : List Bytes} (hf : Full (.arr xs)) (hi : i < xs.length)
    (h1 : ∀ Q y, Leaf (.arr xs) Q y → (d Q = true ↔ ptrToString Q < ptrToString (toStr i :: ts)))
    (hc : restrL d 0 xs = []) : i = 0 := by
  by_contra h0
  rw [Full] at hf
  have hb : xs[0]? = some xs[0] := List.getElem?_eq_getElem (by omega)
  obtain ⟨Q, y, hq⟩ := Full.leaf ((fullL_iff.mp hf.2) _ (List.mem_of_getElem? hb))
  have h3 := (restrL_nil d _ 0 hf.2).mp hc 0 _ hb Q y hq
  rw [Nat.add_zero, (h1 _ y (Leaf.element hb hq)).mpr (text_first_lt (by omega) Q ts)] at h3
  cases h3

theorem create_step {v x : Json F} {P : List Bytes} (h : Leads StrictIndex P v x) (hp : isPrimitive x = true) :
    ∀ {d d' : List Bytes → Bool}, Ordered v → Full v → Short v →
    (∀ Q y, Leaf v Q y → (d Q = true ↔ ptrToString Q < ptrToString P)) →
    (∀ Q y, Leaf v Q y → (d' Q = true ↔ d Q = true ∨ Q = P)) → ¬ Bad d v P →
    ∃ w, createPtrUpd (fun _ => .ok x) P ((restr d v).getD .null) = .ok w ∧ restr d' v = some w := by
  induction h with
  | here v =>
    intro d d' _ _ _ _ h2 _
    refine ⟨v, rfl, ?_⟩
    rw [restr_prim d' hp, (h2 [] v ⟨.here v, hp⟩).mpr (.inr rfl)]
    rfl
  | @member t ts ms a x hm hl ih =>
    intro d d' ho hf hs h1 h2 hbad
    rw [Ordered, orderedM_iff] at ho
    rw [Full, fullM_iff] at hf
    rw [Short, shortM_iff] at hs
    obtain ⟨w, hw1, hw2⟩ := ih hp (d := fun Q => d (t :: Q)) (d' := fun Q => d' (t :: Q)) (ho.2 _ hm) (hf.2 _ hm)
      (hs _ hm) (fun Q y hq => by rw [h1 _ y (Leaf.member hm hq), text_lt_cons])
      (fun Q y hq => by rw [h2 _ y (Leaf.member hm hq)]; simp) (fun hb => hbad (.member hm hb))
    obtain ⟨m1, m2, rfl, hlt, hgt⟩ := lookup_split ho.1 ((lookup_mem_iff ho.1).mpr hm)
    -- the other members are as before
    have hsame : ∀ (ns : List (Bytes × Json F)), (∀ z ∈ ns, z ∈ m1 ++ (t, a) :: m2 ∧ z.1 ≠ t) → restrM d' ns = restrM d ns := by
      intro ns hns
      refine restrM_congr ns fun k b hb Q y hq => ?_
      obtain ⟨hb1, hb2⟩ := hns _ hb
      have := h2 _ y (Leaf.member hb1 hq)
      rw [Bool.eq_iff_iff, this]
      constructor
      · rintro (h | h)
        · exact h
        · injection h with h _; exact absurd h hb2
      · exact .inl
    have e1 := hsame m1 fun z hz => ⟨List.mem_append_left _ hz, fun e => by have := hlt z hz; rw [e] at this; exact key_irrefl _ this⟩
    have e2 := hsame m2 fun z hz => ⟨List.mem_append_right _ (List.mem_cons_of_mem _ hz),
      fun e => by have := hgt z hz; rw [e] at this; exact key_irrefl _ this⟩
    have en : restrM d' (m1 ++ (t, a) :: m2) = restrM d m1 ++ (t, w) :: restrM d m2 := by
      rw [restrM_append, e1, restrM, hw2, e2]
    refine ⟨.obj (restrM d m1 ++ (t, w) :: restrM d m2), ?_, ?_⟩
    · rw [create_member hlt hgt (fun hc ht => hbad (ht ▸ .zero (ht ▸ hm) (ht ▸ hc))), hw1]; rfl
    · rw [restr_obj, en, if_neg (by simp)]
  | @element t ts xs i a x hi hx hl ih =>
    intro d d' ho hf hs h1 h2 hbad
    have hf' := hf
    rw [Ordered, orderedL_iff] at ho
    rw [Full, fullL_iff] at hf
    rw [Short, shortL_iff] at hs
    have hmem := List.mem_of_getElem? hx
    have hi' : t = toStr i := by rw [StrictIndex] at hi; rw [hi, toStr_eq]
    subst hi'
    obtain ⟨w, hw1, hw2⟩ := ih hp (d := fun Q => d (toStr i :: Q)) (d' := fun Q => d' (toStr i :: Q)) (ho _ hmem) (hf.2 _ hmem)
      (hs.2 _ hmem) (fun Q y hq => by rw [h1 _ y (Leaf.element hx hq), text_lt_cons])
      (fun Q y hq => by rw [h2 _ y (Leaf.element hx hq)]; simp) (fun hb => hbad (.element hx hb))
    have hlen : i < xs.length := (List.getElem?_eq_some_iff.mp hx).1
    have hother : ∀ j b, xs[j]? = some b → j ≠ i → ∀ Q y, Leaf b Q y → d' (toStr j :: Q) = d (toStr j :: Q) := by
      intro j b hb hj Q y hq
      have := h2 _ y (Leaf.element hb hq)
      rw [Bool.eq_iff_iff, this]
      constructor
      · rintro (h | h)
        · exact h
        · injection h with h _; exact absurd (toStr_inj h) hj
      · exact .inl
    have hfirst := first_element (d := d) hf' hlen h1
    obtain ⟨zs, ws, rfl, rfl⟩ := get_split hx
    obtain ⟨g1, _⟩ := restrL_set (d := d) (d' := d') (x := a) (y := w) ws zs 0 (by rw [Nat.zero_add]; exact hw2)
      (fun j b hb => by
        rw [Nat.zero_add]
        have hj : j < zs.length := (List.getElem?_eq_some_iff.mp hb).1
        exact restr_congr b fun Q y hq => hother j b (by rw [List.getElem?_append_left hj]; exact hb) (by omega) Q y hq)
      (restrL_congr ws _ fun j b hb Q y hq => by
        rw [Nat.zero_add]
        exact hother (zs.length + 1 + j) b
          (by rw [List.getElem?_append_right (by omega), show zs.length + 1 + j - zs.length = j + 1 by omega]; exact hb)
          (by omega) Q y hq)
    refine ⟨.arr ((padTo (zs.length + 1) (restrL d 0 (zs ++ a :: ws))).set zs.length w), ?_, ?_⟩
    · rw [create_element hs.1 (fun hc => List.length_eq_zero_iff.mp (hfirst hc)), hw1]; rfl
    · rw [restr_arr, g1, if_neg]
      intro e
      have := congrArg List.length e
      simp only [padTo, List.length_set, List.length_append, List.length_replicate, List.length_nil] at this
      omega

theorem create_bad {d : List Bytes → Bool} {v : Json F} {P : List Bytes} (hb : Bad d v P) (f : Json F → Outcome (Json F)) :
    Ordered v → Full v → Short v → (∀ Q y, Leaf v Q y → (d Q = true ↔ ptrToString Q < ptrToString P)) →
    ∀ {w}, createPtrUpd f P ((restr d v).getD .null) = .ok w → Wrong w v := by
  have bind_inv : ∀ {o : Outcome (Json F)} {g : Json F → Json F} {w : Json F}, (o >>= fun u => .ok (g u)) = .ok w →
      ∃ u, o = .ok u ∧ g u = w := by
    intro o g w h
    cases o with
    | ok u => rw [Outcome.bind_ok] at h; injection h with h; exact ⟨u, rfl, h⟩
    | _ => cases h
  induction hb with
  | zero hm hc =>
    intro _ _ _ _ w h
    rw [restr_obj, if_pos hc, Option.getD_none, create_zero] at h
    obtain ⟨u, _, rfl⟩ := bind_inv (g := fun u => .arr [u]) h
    exact .here _ _
  | @member d ms t a ts hm hb ih =>
    intro ho hf hs h1 w h
    by_cases hc : t = [0x30] ∧ restrM d ms = []
    · rw [hc.1, restr_obj, if_pos hc.2, Option.getD_none, create_zero] at h
      obtain ⟨u, _, rfl⟩ := bind_inv (g := fun u => .arr [u]) h
      exact .here _ _
    rw [Ordered, orderedM_iff] at ho
    rw [Full, fullM_iff] at hf
    rw [Short, shortM_iff] at hs
    obtain ⟨m1, m2, rfl, hlt, hgt⟩ := lookup_split ho.1 ((lookup_mem_iff ho.1).mpr hm)
    rw [create_member hlt hgt (fun h1 h2 => hc ⟨h2, h1⟩)] at h
    obtain ⟨u, hu, rfl⟩ := bind_inv (g := fun u => .obj (restrM d m1 ++ (t, u) :: restrM d m2)) h
    refine .member (t := t) (lookup_mid fun z hz => ?_) hm (ih (ho.2 _ hm) (hf.2 _ hm) (hs _ hm)
      (fun Q y hq => by rw [h1 _ y (Leaf.member hm hq), text_lt_cons]) hu)
    obtain ⟨b, hb⟩ := restrM_sub d hz
    exact hlt (z.1, b) hb
  | @element d xs i a ts hx hb ih =>
    intro ho hf hs h1 w h
    have hf' := hf
    rw [Ordered, orderedL_iff] at ho
    rw [Full, fullL_iff] at hf
    rw [Short, shortL_iff] at hs
    have hmem := List.mem_of_getElem? hx
    have hlen : i < xs.length := (List.getElem?_eq_some_iff.mp hx).1
    have hfirst := first_element (d := d) hf' hlen h1
    have hx' := hx
    obtain ⟨zs, ws, rfl, rfl⟩ := get_split hx
    rw [create_element hs.1 (fun hc => List.length_eq_zero_iff.mp (hfirst hc))] at h
    obtain ⟨u, hu, rfl⟩ := bind_inv (g := fun u => .arr ((padTo (zs.length + 1) (restrL d 0 (zs ++ a :: ws))).set zs.length u)) h
    refine .element (i := zs.length) ?_ hx' (ih (ho _ hmem) (hf.2 _ hmem) (hs.2 _ hmem)
      (fun Q y hq => by rw [h1 _ y (Leaf.element hx' hq), text_lt_cons]) hu)
    rw [List.getElem?_set_self]
    simp only [padTo, List.length_append, List.length_replicate]
    omega

end Verif.Json
