import Verif.Json.LeadLemmas
import Verif.Json.CompareLemmas

/-!
# Lemmas about patching with a difference
-/

namespace Verif.Json
open Spec

variable {F L : Type} [LinearOrder L]

theorem bind_assoc {α β γ : Type} (x : Outcome α) (f : α → Outcome β) (g : β → Outcome γ) :
    (x >>= f) >>= g = x >>= fun a => f a >>= g := by cases x <;> rfl

theorem bind_pure {α : Type} (x : Outcome α) : (x >>= fun a => .ok a) = x := by cases x <;> rfl

theorem atPtr_append : ∀ (P Q : List Bytes) (v : Json F), atPtr (P ++ Q) v = atPtr P v >>= fun a => atPtr Q a
  | [], Q, v => by simp [atPtr]
  | t :: P, Q, .obj ms => by
    rw [List.cons_append, atPtr, atPtr]
    cases lookup t ms with
    | none => rfl
    | some x => exact atPtr_append P Q x
  | t :: P, Q, .arr xs => by
    rw [List.cons_append, atPtr, atPtr]
    by_cases h1 : t = [0x2d]
    · rw [if_pos h1, if_pos h1]; rfl
    rw [if_neg h1, if_neg h1]
    by_cases h2 : zeroLed t = true
    · rw [if_pos h2, if_pos h2]; rfl
    rw [if_neg h2, if_neg h2]
    cases tokenIndex t with
    | ok i =>
      simp only [Outcome.bind_ok]
      cases xs[i]? with
      | none => rfl
      | some x => exact atPtr_append P Q x
    | _ => rfl
  | t :: P, Q, .null | t :: P, Q, .bool _ | t :: P, Q, .int _ | t :: P, Q, .uint _
  | t :: P, Q, .float _ | t :: P, Q, .str _ => by simp [atPtr]

theorem atPtrUpd_append (f : Json F → Outcome (Json F)) : ∀ (P Q : List Bytes) (v : Json F),
    atPtrUpd f (P ++ Q) v = atPtrUpd (fun a => atPtrUpd f Q a) P v
  | [], Q, v => by simp [atPtrUpd]
  | t :: P, Q, .obj ms => by
    rw [List.cons_append, atPtrUpd, atPtrUpd]
    cases lookup t ms with
    | none => rfl
    | some x => simp only; rw [atPtrUpd_append f P Q x]
  | t :: P, Q, .arr xs => by
    rw [List.cons_append, atPtrUpd, atPtrUpd]
    by_cases h1 : t = [0x2d]
    · rw [if_pos h1, if_pos h1]
    rw [if_neg h1, if_neg h1]
    by_cases h2 : zeroLed t = true
    · rw [if_pos h2, if_pos h2]
    rw [if_neg h2, if_neg h2]
    cases tokenIndex t with
    | ok i =>
      simp only [Outcome.bind_ok]
      cases xs[i]? with
      | none => rfl
      | some x => simp only; rw [atPtrUpd_append f P Q x]
    | _ => rfl
  | t :: P, Q, .null | t :: P, Q, .bool _ | t :: P, Q, .int _ | t :: P, Q, .uint _
  | t :: P, Q, .float _ | t :: P, Q, .str _ => by simp [atPtrUpd]

/-! ## A place within a value -/

/-- `K a` is a value with `a` at the place `P`: found there, and changed only there -/
def Focus (P : List Bytes) (K : Json F → Json F) : Prop :=
  ∀ a, atPtr P (K a) = .ok a ∧ ∀ f, atPtrUpd f P (K a) = f a >>= fun b => .ok (K b)

theorem Focus.root : Focus [] (fun a : Json F => a) := fun a => ⟨rfl, fun f => by rw [atPtrUpd, bind_pure]⟩

theorem Focus.comp {P Q : List Bytes} {K K' : Json F → Json F} (h : Focus P K) (h' : Focus Q K') :
    Focus (P ++ Q) (fun a => K (K' a)) := by
  intro a
  refine ⟨?_, fun f => ?_⟩
  · rw [atPtr_append, (h _).1, Outcome.bind_ok, (h' a).1]
  · rw [atPtrUpd_append, (h _).2, (h' a).2, bind_assoc]
    cases f a <;> rfl

theorem Focus.idx (xs ys : List (Json F)) (hx : xs.length < 2 ^ 31) :
    Focus [toStr xs.length] (fun a => .arr (xs ++ a :: ys)) := by
  intro a
  refine ⟨?_, fun f => ?_⟩
  · rw [atPtr, if_neg (toStr_minus _), zeroLed_toStr, tokenIndex_toStr hx]
    simp [atPtr]
  · rw [atPtrUpd, if_neg (toStr_minus _), zeroLed_toStr, tokenIndex_toStr hx]
    simp [atPtrUpd]

theorem lookup_mid {k : Bytes} {a : Json F} {ns : List (Bytes × Json F)} : ∀ {ms : List (Bytes × Json F)},
    (∀ x ∈ ms, x.1 < k) → lookup k (ms ++ (k, a) :: ns) = some a
  | [], _ => by rw [List.nil_append, lookup_cons, if_pos rfl]
  | (l, w) :: ms, h => by
    rw [List.cons_append, lookup_cons, if_neg, lookup_mid (fun x hx => h x (by simp [hx]))]
    intro e
    have := h (l, w) (by simp)
    simp only [← e] at this
    exact key_irrefl _ this

theorem setKey_mid {k : Bytes} {a b : Json F} {ns : List (Bytes × Json F)} : ∀ {ms : List (Bytes × Json F)},
    (∀ x ∈ ms, x.1 < k) → setKey k b (ms ++ (k, a) :: ns) = ms ++ (k, b) :: ns
  | [], _ => by rw [List.nil_append, setKey_cons, if_neg (key_irrefl k), if_pos rfl]; rfl
  | (l, w) :: ms, h => by
    have hl : l < k := h (l, w) (by simp)
    rw [List.cons_append, setKey_cons, if_neg (key_asymm hl), if_neg, setKey_mid (fun x hx => h x (by simp [hx]))]
    · rfl
    · rintro rfl
      exact key_irrefl _ hl

theorem eraseKey_mid {k : Bytes} {a : Json F} {ns : List (Bytes × Json F)} : ∀ {ms : List (Bytes × Json F)},
    (∀ x ∈ ms, x.1 < k) → eraseKey k (ms ++ (k, a) :: ns) = ms ++ ns
  | [], _ => by rw [List.nil_append, eraseKey_cons, if_pos rfl]; rfl
  | (l, w) :: ms, h => by
    have hl : l < k := h (l, w) (by simp)
    rw [List.cons_append, eraseKey_cons, if_neg, eraseKey_mid (fun x hx => h x (by simp [hx]))]
    · rfl
    · rintro rfl
      exact key_irrefl _ hl

theorem Focus.key (k : Bytes) (ms ns : List (Bytes × Json F)) (h : ∀ x ∈ ms, x.1 < k) :
    Focus [k] (fun a => .obj (ms ++ (k, a) :: ns)) := by
  intro a
  refine ⟨?_, fun f => ?_⟩
  · rw [atPtr, lookup_mid h]; simp [atPtr]
  · rw [atPtrUpd, lookup_mid h]
    simp only [atPtrUpd]
    cases f a with
    | ok b => simp only [Outcome.bind_ok]; rw [setKey_mid h]
    | _ => rfl

/-! ## The operations of a difference -/

theorem lookup_opVal_op (op path : Bytes) (v : Json F) :
    lookup wOp [(wOp, .str op), (wPath, .str path), (wValue, v)] = some (.str op) := by rw [lookup_cons, if_pos rfl]

theorem lookup_opVal_path (op path : Bytes) (v : Json F) :
    lookup wPath [(wOp, .str op), (wPath, .str path), (wValue, v)] = some (.str path) := by
  rw [lookup_cons, if_neg (by decide), lookup_cons, if_pos rfl]

theorem lookup_opVal_value (op path : Bytes) (v : Json F) :
    lookup wValue [(wOp, .str op), (wPath, .str path), (wValue, v)] = some v := by
  rw [lookup_cons, if_neg (by decide), lookup_cons, if_neg (by decide), lookup_cons, if_pos rfl]

theorem step_opVal (fo : FloatOrder F L) (r : Json F) (op : Bytes) (ts : List Bytes) (v : Json F) :
    patchStep fo r (opVal op (ptrToString ts) v) =
      if op = wAdd then operationAdd ts v r
      else if op = wRemove then operationRemove ts r
      else if op = wReplace then atPtrUpd (fun _ => .ok v) ts r
      else patchStep fo r (opVal op (ptrToString ts) v) := by
  by_cases h1 : op = wAdd
  · rw [if_pos h1]
    simp [opVal, patchStep, getString, getValue, lookup_opVal_op, lookup_opVal_path, lookup_opVal_value,
      split_ptrToString, h1]
  · rw [if_neg h1]
    by_cases h2 : op = wRemove
    · rw [if_pos h2]
      simp [opVal, patchStep, getString, getValue, lookup_opVal_op, lookup_opVal_path,
        split_ptrToString, h2, show wRemove ≠ wAdd by decide]
    · rw [if_neg h2]
      by_cases h3 : op = wReplace
      · rw [if_pos h3]
        simp [opVal, patchStep, getString, getValue, lookup_opVal_op, lookup_opVal_path, lookup_opVal_value,
          split_ptrToString, h3, show wReplace ≠ wAdd by decide, show wReplace ≠ wRemove by decide]
      · rw [if_neg h3]

theorem step_opRemove (fo : FloatOrder F L) (r : Json F) (ts : List Bytes) :
    patchStep fo r (opRemove (ptrToString ts)) = operationRemove ts r := by
  have h1 : lookup wOp [(wOp, (.str wRemove : Json F)), (wPath, .str (ptrToString ts))] = some (.str wRemove) := by
    rw [lookup_cons, if_pos rfl]
  have h2 : lookup wPath [(wOp, (.str wRemove : Json F)), (wPath, .str (ptrToString ts))] = some (.str (ptrToString ts)) := by
    rw [lookup_cons, if_neg (by decide), lookup_cons, if_pos rfl]
  simp [opRemove, patchStep, getString, h1, h2, split_ptrToString, show wRemove ≠ wAdd by decide]

theorem step_replace (fo : FloatOrder F L) {P : List Bytes} {K : Json F → Json F} (h : Focus P K) (a y : Json F) :
    patchStep fo (K a) (opVal wReplace (ptrToString P) y) = .ok (K y) := by
  rw [step_opVal, if_neg (by decide), if_neg (by decide), if_pos rfl, (h a).2]
  rfl

theorem step_remove (fo : FloatOrder F L) {P : List Bytes} {K : Json F → Json F} (h : Focus P K) (a : Json F) (t : Bytes) :
    patchStep fo (K a) (opRemove (ptrToString P ++ [0x2f] ++ escape t)) = removeFrom t a >>= fun b => .ok (K b) := by
  rw [← ptrToString_snoc, step_opRemove]
  have e : operationRemove (P ++ [t]) (K a) = atPtrUpd (removeFrom ((P ++ [t]).getLastD [])) (P ++ [t]).dropLast (K a) := by
    cases hP : P ++ [t] with
    | nil => simp at hP
    | cons u us => rfl
  rw [e, List.dropLast_concat, (h a).2]
  simp

theorem step_add (fo : FloatOrder F L) {P : List Bytes} {K : Json F → Json F} (h : Focus P K) (a y : Json F) (t : Bytes) :
    patchStep fo (K a) (opVal wAdd (ptrToString P ++ [0x2f] ++ escape t) y) = addTo t y a >>= fun b => .ok (K b) := by
  rw [← ptrToString_snoc, step_opVal, if_pos rfl]
  cases hP : P ++ [t] with
  | nil => simp at hP
  | cons u us =>
    rw [operationAdd, ← hP, List.dropLast_concat, index_at _ (h a).1, (h a).2]
    have hl : (P ++ [t]).getLastD [] = t := by simp
    rw [hl]
    by_cases hu : us = []
    · rw [if_pos hu]; rfl
    · rw [if_neg hu]
      cases P with
      | nil => simp at hP; exact absurd hP.2 hu
      | cons p P' =>
        rw [List.cons_append] at hP
        injection hP with hp _
        subst hp
        have := (h a).1
        rw [show p :: P' = [p] ++ P' from rfl, atPtr_append] at this
        cases hq : atPtr [p] (K a) with
        | ok x => rfl
        | _ => rw [hq] at this; cases this

theorem esc_digits {s : Bytes} (h : ∀ c ∈ s, Digit c) : esc s = s := by
  induction s with
  | nil => rfl
  | cons c s ih =>
    have hc := h c (by simp)
    unfold Digit at hc
    rw [esc, if_neg (by omega), if_neg (by omega), ih (fun d hd => h d (by simp [hd]))]

theorem escape_toStr (n : Nat) : escape (toStr n) = toStr n := by
  rw [escape_eq, toStr_eq, esc_digits (digits_digit n)]

/-! ## What a difference does -/

/-- the new members of the second object -/
def addNew (ms : List (Bytes × Json F)) : List (Bytes × Json F) → List (Bytes × Json F) → List (Bytes × Json F)
  | [], acc => acc
  | (k, v) :: ns, acc =>
    match lookup k ms with
    | none => addNew ms ns (setKey k v acc)
    | some _ => addNew ms ns acc

mutual
/-- the first value, patched with its difference to the second: equal parts stay -/
def patched (fo : FloatOrder F L) (s t : Json F) : Json F :=
  if eqV fo s t then s
  else if typeTag s ≠ typeTag t then t
  else
    match s, t with
    | .arr xs, .arr ys => .arr (patchedL fo xs ys)
    | .obj ms, .obj ns => .obj (addNew ms ns (patchedM fo ns ms))
    | _, t => t
def patchedL (fo : FloatOrder F L) : List (Json F) → List (Json F) → List (Json F)
  | x :: xs, y :: ys => patched fo x y :: patchedL fo xs ys
  | _ :: _, [] => []
  | [], ys => ys
def patchedM (fo : FloatOrder F L) (ns : List (Bytes × Json F)) : List (Bytes × Json F) → List (Bytes × Json F)
  | [] => []
  | (k, v) :: ms =>
    match lookup k ns with
    | some w => (k, patched fo v w) :: patchedM fo ns ms
    | none => patchedM fo ns ms
end

theorem run_removes (fo : FloatOrder F L) {P : List Bytes} {K : Json F → Json F} (h : Focus P K) (rest : List (Json F)) :
    ∀ (xs zs : List (Json F)), zs.length + xs.length ≤ 2 ^ 31 →
      patchLoop fo (K (.arr (zs ++ xs))) (diffRemoves (ptrToString P) zs.length xs ++ rest) =
        patchLoop fo (K (.arr zs)) rest := by
  intro xs
  induction xs generalizing rest with
  | nil => intro zs _; simp [diffRemoves]
  | cons x xs ih =>
    intro zs hl
    rw [diffRemoves, List.append_assoc]
    have e : zs ++ x :: xs = (zs ++ [x]) ++ xs := by simp
    have e2 : zs.length + 1 = (zs ++ [x]).length := by simp
    simp only [List.length_cons] at hl
    rw [e, e2, ih _ (zs ++ [x]) (by simp; omega), List.cons_append, List.nil_append, patchLoop]
    have := step_remove fo h (.arr (zs ++ [x])) (toStr zs.length)
    rw [escape_toStr] at this
    rw [this, removeFrom, bareIndex_toStr (by omega)]
    have : ¬ (zs ++ [x]).length ≤ zs.length := by simp
    simp only [Outcome.bind_ok, this, if_false]
    rw [List.eraseIdx_append_of_length_le (Nat.le_refl _)]
    simp

theorem run_adds (fo : FloatOrder F L) {P : List Bytes} {K : Json F → Json F} (h : Focus P K) (rest : List (Json F)) :
    ∀ (ys zs : List (Json F)), zs.length + ys.length ≤ 2 ^ 31 →
      patchLoop fo (K (.arr zs)) (diffAdds (ptrToString P) zs.length ys ++ rest) =
        patchLoop fo (K (.arr (zs ++ ys))) rest := by
  intro ys
  induction ys with
  | nil => intro zs _; simp [diffAdds]
  | cons y ys ih =>
    intro zs hl
    simp only [List.length_cons] at hl
    rw [diffAdds, List.cons_append, patchLoop]
    have := step_add fo h (.arr zs) y (toStr zs.length)
    rw [escape_toStr] at this
    rw [this, addTo, if_neg (toStr_minus _), bareIndex_toStr (by omega)]
    simp only [Outcome.bind_ok, Nat.lt_irrefl, if_false, List.take_length, List.drop_length, List.append_nil]
    have e2 : zs.length + 1 = (zs ++ [y]).length := by simp
    rw [e2, ih (zs ++ [y]) (by simp; omega)]
    simp

theorem run_new (fo : FloatOrder F L) {P : List Bytes} {K : Json F → Json F} (h : Focus P K) (rest : List (Json F))
    (ms : List (Bytes × Json F)) : ∀ (ns acc : List (Bytes × Json F)),
      patchLoop fo (K (.obj acc)) (diffNew (ptrToString P) ms ns ++ rest) =
        patchLoop fo (K (.obj (addNew ms ns acc))) rest
  | [], acc => by simp [diffNew, addNew]
  | (k, v) :: ns, acc => by
    rw [diffNew, addNew]
    cases lookup k ms with
    | none =>
      simp only
      rw [List.cons_append, patchLoop, step_add fo h, addTo]
      simp only [Outcome.bind_ok]
      exact run_new fo h rest ms ns _
    | some _ => exact run_new fo h rest ms ns acc

theorem diffRec_arr (fo : FloatOrder F L) (xs ys : List (Json F)) (p : Bytes) : diffRec fo (.arr xs) (.arr ys) p =
    if eqV fo (.arr xs) (.arr ys) then [] else diffArr fo p 0 xs ys := by simp [diffRec, typeTag]

theorem diffRec_obj (fo : FloatOrder F L) (ms ns : List (Bytes × Json F)) (p : Bytes) : diffRec fo (.obj ms) (.obj ns) p =
    if eqV fo (.obj ms) (.obj ns) then [] else diffObj fo p ns ms ++ diffNew p ms ns := by simp [diffRec, typeTag]

theorem patched_arr (fo : FloatOrder F L) (xs ys : List (Json F)) : patched fo (.arr xs) (.arr ys) =
    if eqV fo (.arr xs) (.arr ys) then .arr xs else .arr (patchedL fo xs ys) := by simp [patched, typeTag]

theorem patched_obj (fo : FloatOrder F L) (ms ns : List (Bytes × Json F)) : patched fo (.obj ms) (.obj ns) =
    if eqV fo (.obj ms) (.obj ns) then .obj ms else .obj (addNew ms ns (patchedM fo ns ms)) := by
  simp [patched, typeTag]

/-- neither two arrays nor two objects -/
def Mixed (s t : Json F) : Prop := (∀ xs ys, ¬ (s = .arr xs ∧ t = .arr ys)) ∧ ∀ ms ns, ¬ (s = .obj ms ∧ t = .obj ns)

theorem diffRec_mixed (fo : FloatOrder F L) {s t : Json F} (h : Mixed s t) (p : Bytes) : diffRec fo s t p =
    if eqV fo s t then [] else [opVal wReplace p t] := by
  cases s <;> cases t <;> first
    | exact absurd ⟨rfl, rfl⟩ (h.1 _ _)
    | exact absurd ⟨rfl, rfl⟩ (h.2 _ _)
    | simp [diffRec, typeTag]

theorem patched_mixed (fo : FloatOrder F L) {s t : Json F} (h : Mixed s t) : patched fo s t =
    if eqV fo s t then s else t := by
  cases s <;> cases t <;> first
    | exact absurd ⟨rfl, rfl⟩ (h.1 _ _)
    | exact absurd ⟨rfl, rfl⟩ (h.2 _ _)
    | simp [patched, typeTag]

theorem run_mixed (fo : FloatOrder F L) {s t : Json F} (hm : Mixed s t) {P : List Bytes} {K : Json F → Json F}
    (h : Focus P K) (rest : List (Json F)) :
    patchLoop fo (K s) (diffRec fo s t (ptrToString P) ++ rest) = patchLoop fo (K (patched fo s t)) rest := by
  rw [diffRec_mixed fo hm, patched_mixed fo hm]
  by_cases h1 : eqV fo s t = true
  · rw [if_pos h1, if_pos h1]; rfl
  · rw [if_neg h1, if_neg h1, List.cons_append, patchLoop, step_replace fo h]; rfl

mutual
theorem run_diff (fo : FloatOrder F L) : ∀ (s t : Json F) {P : List Bytes} {K : Json F → Json F} (_ : Focus P K)
    (rest : List (Json F)), Ordered s → Short s → Short t →
    patchLoop fo (K s) (diffRec fo s t (ptrToString P) ++ rest) = patchLoop fo (K (patched fo s t)) rest
  | .arr xs, t, P, K, h, rest, ho, hs, ht => by
    cases t with
    | arr ys =>
      rw [diffRec_arr, patched_arr]
      by_cases h1 : eqV fo (.arr xs) (.arr ys) = true
      · rw [if_pos h1, if_pos h1]; rfl
      rw [if_neg h1, if_neg h1]
      rw [Ordered] at ho
      rw [Short] at hs ht
      have := run_diffL fo xs ys h rest [] (by simpa using hs.1) (by simpa using ht.1) ho hs.2 ht.2
      simpa using this
    | _ => exact run_mixed fo ⟨by simp, by simp⟩ h rest
  | .obj ms, t, P, K, h, rest, ho, hs, ht => by
    cases t with
    | obj ns =>
      rw [diffRec_obj, patched_obj]
      by_cases h1 : eqV fo (.obj ms) (.obj ns) = true
      · rw [if_pos h1, if_pos h1]; rfl
      rw [if_neg h1, if_neg h1]
      rw [Ordered] at ho
      rw [Short] at hs ht
      have := run_diffM fo ns ms h (diffNew (ptrToString P) ms ns ++ rest) [] ho.1 ho.2 hs ht
      simp only [List.nil_append] at this
      rw [List.append_assoc, this, run_new fo h]
    | _ => exact run_mixed fo ⟨by simp, by simp⟩ h rest
  | .null, t, P, K, h, rest, _, _, _ | .bool _, t, P, K, h, rest, _, _, _ | .int _, t, P, K, h, rest, _, _, _
  | .uint _, t, P, K, h, rest, _, _, _ | .float _, t, P, K, h, rest, _, _, _ | .str _, t, P, K, h, rest, _, _, _ =>
    run_mixed fo ⟨by simp, by simp⟩ h rest
theorem run_diffL (fo : FloatOrder F L) : ∀ (xs ys : List (Json F)) {P : List Bytes} {K : Json F → Json F} (_ : Focus P K)
    (rest zs : List (Json F)), zs.length + xs.length ≤ 2 ^ 31 → zs.length + ys.length ≤ 2 ^ 31 →
    OrderedL xs → ShortL xs → ShortL ys →
    patchLoop fo (K (.arr (zs ++ xs))) (diffArr fo (ptrToString P) zs.length xs ys ++ rest) =
      patchLoop fo (K (.arr (zs ++ patchedL fo xs ys))) rest
  | [], ys, P, K, h, rest, zs, _, hy, _, _, _ => by
    rw [diffArr, patchedL, List.append_nil, run_adds fo h rest ys zs hy]
  | x :: xs, [], P, K, h, rest, zs, hx, _, _, _, _ => by
    rw [diffArr, patchedL, List.append_nil, run_removes fo h rest (x :: xs) zs hx]
  | x :: xs, y :: ys, P, K, h, rest, zs, hx, hy, ho, hs, ht => by
    rw [OrderedL] at ho
    rw [ShortL] at hs ht
    simp only [List.length_cons] at hx hy
    rw [diffArr, patchedL, List.append_assoc]
    have hf := h.comp (Focus.idx zs xs (by omega))
    have h1 := run_diff fo x y hf (diffArr fo (ptrToString P) (zs.length + 1) xs ys ++ rest) ho.1 hs.1 ht.1
    rw [ptrToString_snoc, escape_toStr] at h1
    rw [h1]
    have e : zs ++ patched fo x y :: xs = (zs ++ [patched fo x y]) ++ xs := by simp
    have e2 : zs.length + 1 = (zs ++ [patched fo x y]).length := by simp
    rw [e, e2, run_diffL fo xs ys h rest _ (by simp; omega) (by simp; omega) ho.2 hs.2 ht.2]
    simp
theorem run_diffM (fo : FloatOrder F L) (ns : List (Bytes × Json F)) : ∀ (ms : List (Bytes × Json F)) {P : List Bytes}
    {K : Json F → Json F} (_ : Focus P K) (rest : List (Json F)) (zs : List (Bytes × Json F)),
    SortedM (zs ++ ms) → OrderedM ms → ShortM ms → ShortM ns →
    patchLoop fo (K (.obj (zs ++ ms))) (diffObj fo (ptrToString P) ns ms ++ rest) =
      patchLoop fo (K (.obj (zs ++ patchedM fo ns ms))) rest
  | [], P, K, h, rest, zs, _, _, _, _ => by
    rw [diffObj, patchedM]; rfl
  | (k, v) :: ms, P, K, h, rest, zs, hs, ho, hsm, hsn => by
    rw [OrderedM] at ho
    rw [ShortM] at hsm
    have hz : ∀ x ∈ zs, x.1 < k := fun x hx => (List.pairwise_append.mp hs).2.2 x hx (k, v) (by simp)
    rw [diffObj, patchedM, List.append_assoc]
    cases hl : lookup k ns with
    | some w =>
      simp only
      have hf := h.comp (Focus.key k zs ms hz)
      have h1 := run_diff fo v w hf (diffObj fo (ptrToString P) ns ms ++ rest) ho.1 hsm.1
        (shortM_iff.mp hsn _ (lookup_mem hl))
      rw [ptrToString_snoc] at h1
      rw [h1]
      have e : zs ++ (k, patched fo v w) :: ms = (zs ++ [(k, patched fo v w)]) ++ ms := by simp
      rw [e, run_diffM fo ns ms h rest _ ?_ ho.2 hsm.2 hsn]
      · simp
      · rw [← e]
        have hp := List.pairwise_append.mp hs
        have hc := List.pairwise_cons.mp hp.2.1
        refine List.pairwise_append.mpr ⟨hp.1, List.pairwise_cons.mpr ⟨hc.1, hc.2⟩, ?_⟩
        intro a ha b hb
        rcases List.mem_cons.mp hb with rfl | hb
        · exact hz a ha
        · exact hp.2.2 a ha b (List.mem_cons_of_mem _ hb)
    | none =>
      simp only
      have h1 := step_remove fo h (.obj (zs ++ (k, v) :: ms)) k
      rw [List.cons_append, patchLoop, h1, removeFrom, lookup_mid hz, eraseKey_mid hz]
      simp only [Outcome.bind_ok, List.nil_append]
      have hp := List.pairwise_append.mp hs
      exact run_diffM fo ns ms h rest zs (List.pairwise_append.mpr ⟨hp.1, (List.pairwise_cons.mp hp.2.1).2,
        fun a ha b hb => hp.2.2 a ha b (List.mem_cons_of_mem _ hb)⟩) ho.2 hsm.2 hsn
end

/-! ## What is left equals the second value -/

theorem fo_right_self {fo : FloatOrder F L} {x y : F} (h : fo.eq x y = true) : fo.eq y y = true := by
  rw [FloatOrder.eq_self]
  intro e
  rw [FloatOrder.eq, e] at h
  cases hx : fo.place x <;> simp [hx] at h

mutual
theorem eqV_right_self (fo : FloatOrder F L) : ∀ {a b : Json F}, eqV fo a b = true → eqV fo b b = true
  | .arr xs, .arr ys, h => by rw [eqV] at h ⊢; exact eqL_right_self fo h
  | .obj ms, .obj ns, h => by rw [eqV] at h ⊢; exact eqM_right_self fo h
  | a, .null, _ => by simp [eqV]
  | a, .bool _, _ => by simp [eqV]
  | a, .int _, _ => by simp [eqV]
  | a, .uint _, _ => by simp [eqV]
  | a, .str _, _ => by simp [eqV]
  | a, .float y, h => by
    rw [eqV]
    cases a <;> simp only [eqV, Bool.false_eq_true] at h <;> exact fo_right_self h
  | .null, .arr _, h | .bool _, .arr _, h | .int _, .arr _, h | .uint _, .arr _, h | .float _, .arr _, h
  | .str _, .arr _, h | .obj _, .arr _, h => by simp [eqV] at h
  | .null, .obj _, h | .bool _, .obj _, h | .int _, .obj _, h | .uint _, .obj _, h | .float _, .obj _, h
  | .str _, .obj _, h | .arr _, .obj _, h => by simp [eqV] at h
theorem eqL_right_self (fo : FloatOrder F L) : ∀ {xs ys : List (Json F)}, eqL fo xs ys = true → eqL fo ys ys = true
  | [], [], _ => by simp [eqL]
  | x :: xs, y :: ys, h => by
    rw [eqL, Bool.and_eq_true] at h ⊢
    exact ⟨eqV_right_self fo h.1, eqL_right_self fo h.2⟩
  | [], _ :: _, h => by simp [eqL] at h
  | _ :: _, [], _ => by simp [eqL]
theorem eqM_right_self (fo : FloatOrder F L) : ∀ {ms ns : List (Bytes × Json F)}, eqM fo ms ns = true → eqM fo ns ns = true
  | [], [], _ => by simp [eqM]
  | (k, x) :: ms, (l, y) :: ns, h => by
    rw [eqM, Bool.and_eq_true, Bool.and_eq_true] at h ⊢
    exact ⟨⟨by simp, eqV_right_self fo h.1.2⟩, eqM_right_self fo h.2⟩
  | [], (_, _) :: _, h => by simp [eqM] at h
  | _ :: _, [], _ => by simp [eqM]
end

/-- maps with the same keys, and equal values at each -/
theorem eqM_ext (fo : FloatOrder F L) : ∀ {ms ns : List (Bytes × Json F)}, SortedM ms → SortedM ns →
    (∀ k, (lookup k ms = none ∧ lookup k ns = none) ∨
      ∃ a b, lookup k ms = some a ∧ lookup k ns = some b ∧ eqV fo a b = eqV fo b b) →
    eqM fo ms ns = eqM fo ns ns
  | [], [], _, _, _ => rfl
  | [], (l, w) :: ns, _, _, h => by
    rcases h l with ⟨_, h2⟩ | ⟨a, b, h1, _⟩
    · rw [lookup_cons, if_pos rfl] at h2; cases h2
    · rw [lookup_nil] at h1; cases h1
  | (l, w) :: ms, [], _, _, h => by
    rcases h l with ⟨h1, _⟩ | ⟨a, b, _, h2, _⟩
    · rw [lookup_cons, if_pos rfl] at h1; cases h1
    · rw [lookup_nil] at h2; cases h2
  | (k, v) :: ms, (l, w) :: ns, hm, hn, h => by
    have hm' := List.pairwise_cons.1 hm
    have hn' := List.pairwise_cons.1 hn
    have hkl : k = l := by
      rcases key_total k l with hlt | he | hlt
      · rcases h k with ⟨h1, _⟩ | ⟨a, b, _, h2, _⟩
        · rw [lookup_cons, if_pos rfl] at h1; cases h1
        · rw [lookup_cons, if_neg (fun e => by rw [e] at hlt; exact key_irrefl _ hlt)] at h2
          exact absurd hlt (key_asymm (hn'.1 _ (lookup_mem h2)))
      · exact he
      · rcases h l with ⟨_, h2⟩ | ⟨a, b, h1, _⟩
        · rw [lookup_cons, if_pos rfl] at h2; cases h2
        · rw [lookup_cons, if_neg (fun e => by rw [e] at hlt; exact key_irrefl _ hlt)] at h1
          exact absurd hlt (key_asymm (hm'.1 _ (lookup_mem h1)))
    subst hkl
    have hv : eqV fo v w = eqV fo w w := by
      rcases h k with ⟨h1, _⟩ | ⟨a, b, h1, h2, h3⟩
      · rw [lookup_cons, if_pos rfl] at h1; cases h1
      · rw [lookup_cons, if_pos rfl] at h1 h2
        cases h1
        cases h2
        exact h3
    rw [eqM, eqM, hv, eqM_ext fo hm'.2 hn'.2]
    intro k'
    by_cases e : k' = k
    · left
      constructor
      · rw [lookup_none_iff]
        intro x hx hx'
        have := hm'.1 x hx
        simp only at this
        rw [hx', e] at this
        exact key_irrefl _ this
      · rw [lookup_none_iff]
        intro x hx hx'
        have := hn'.1 x hx
        simp only at this
        rw [hx', e] at this
        exact key_irrefl _ this
    · have := h k'
      rw [lookup_cons, if_neg e, lookup_cons, if_neg e] at this
      exact this

theorem sorted_addNew (ms : List (Bytes × Json F)) : ∀ (ns acc : List (Bytes × Json F)), SortedM acc →
    SortedM (addNew ms ns acc)
  | [], acc, h => h
  | (k, v) :: ns, acc, h => by
    rw [addNew]
    cases lookup k ms with
    | none => exact sorted_addNew ms ns _ (sorted_setKey h)
    | some _ => exact sorted_addNew ms ns acc h

theorem lookup_addNew {ms : List (Bytes × Json F)} {k : Bytes} : ∀ {ns acc : List (Bytes × Json F)}, SortedM ns →
    lookup k (addNew ms ns acc) =
      match lookup k ms, lookup k ns with
      | none, some y => some y
      | _, _ => lookup k acc
  | [], acc, _ => by
    rw [addNew, lookup_nil]
    cases lookup k ms <;> rfl
  | (l, w) :: ns, acc, hs => by
    have hs' := List.pairwise_cons.1 hs
    rw [addNew]
    by_cases e : k = l
    · subst e
      have h0 : lookup k ns = none := by
        rw [lookup_none_iff]
        intro x hx hx'
        have := hs'.1 x hx
        simp only at this
        rw [hx'] at this
        exact key_irrefl _ this
      rw [lookup_cons, if_pos rfl]
      cases hk : lookup k ms with
      | none =>
        simp only
        rw [lookup_addNew hs'.2, hk, h0]
        simp only
        rw [lookup_setKey]
      | some _ =>
        simp only
        rw [lookup_addNew hs'.2, hk, h0]
    · rw [lookup_cons, if_neg e]
      cases hl : lookup l ms with
      | none =>
        simp only
        rw [lookup_addNew hs'.2, lookup_setKey_ne e]
      | some _ =>
        simp only
        rw [lookup_addNew hs'.2]

theorem patchedM_mem (fo : FloatOrder F L) {ns : List (Bytes × Json F)} {x : Bytes × Json F} :
    ∀ {ms : List (Bytes × Json F)}, x ∈ patchedM fo ns ms → ∃ v, (x.1, v) ∈ ms
  | [], h => by rw [patchedM] at h; simp at h
  | (k, v) :: ms, h => by
    rw [patchedM] at h
    cases hl : lookup k ns with
    | none =>
      rw [hl] at h
      obtain ⟨v', h'⟩ := patchedM_mem fo h
      exact ⟨v', List.mem_cons_of_mem _ h'⟩
    | some w =>
      rw [hl] at h
      rcases List.mem_cons.mp h with h | h
      · exact ⟨v, by rw [h]; exact List.mem_cons_self⟩
      · obtain ⟨v', h'⟩ := patchedM_mem fo h
        exact ⟨v', List.mem_cons_of_mem _ h'⟩

theorem sorted_patchedM (fo : FloatOrder F L) {ns : List (Bytes × Json F)} : ∀ {ms : List (Bytes × Json F)},
    SortedM ms → SortedM (patchedM fo ns ms)
  | [], _ => by rw [patchedM]; exact List.Pairwise.nil
  | (k, v) :: ms, hs => by
    have hs' := List.pairwise_cons.1 hs
    rw [patchedM]
    cases lookup k ns with
    | none => exact sorted_patchedM fo hs'.2
    | some w =>
      refine List.pairwise_cons.2 ⟨fun x hx => ?_, sorted_patchedM fo hs'.2⟩
      obtain ⟨v', h'⟩ := patchedM_mem fo hx
      exact hs'.1 (x.1, v') h'

theorem lookup_patchedM (fo : FloatOrder F L) {ns : List (Bytes × Json F)} {k : Bytes} : ∀ (ms : List (Bytes × Json F)),
    SortedM ms → lookup k (patchedM fo ns ms) =
      match lookup k ms, lookup k ns with
      | some v, some w => some (patched fo v w)
      | _, _ => none
  | [], _ => by rw [patchedM, lookup_nil]
  | (l, v) :: ms, hs => by
    have hs' := List.pairwise_cons.1 hs
    rw [patchedM, lookup_cons]
    by_cases e : k = l
    · subst e
      have h0 : lookup k ms = none := by
        rw [lookup_none_iff]
        intro x hx hx'
        have := hs'.1 x hx
        simp only at this
        rw [hx'] at this
        exact key_irrefl _ this
      rw [if_pos rfl]
      cases hk : lookup k ns with
      | none =>
        simp only
        rw [lookup_patchedM fo ms hs'.2, h0]
      | some w =>
        simp only
        rw [lookup_cons, if_pos rfl]
    · rw [if_neg e]
      cases hl : lookup l ns with
      | none =>
        simp only
        rw [lookup_patchedM fo ms hs'.2]
      | some w =>
        simp only
        rw [lookup_cons, if_neg e, lookup_patchedM fo ms hs'.2]

theorem eq_mixed (fo : FloatOrder F L) {s t : Json F} (h : Mixed s t) : eqV fo (patched fo s t) t = eqV fo t t := by
  rw [patched_mixed fo h]
  by_cases h1 : eqV fo s t = true
  · rw [if_pos h1, h1, eqV_right_self fo h1]
  · rw [if_neg h1]

mutual
theorem eq_patched (fo : FloatOrder F L) : ∀ (s t : Json F), Ordered s → Ordered t →
    eqV fo (patched fo s t) t = eqV fo t t
  | .arr xs, t, hs, ht => by
    cases t with
    | arr ys =>
      rw [patched_arr]
      by_cases h1 : eqV fo (.arr xs) (.arr ys) = true
      · rw [if_pos h1, h1, eqV_right_self fo h1]
      rw [if_neg h1, eqV, eqV]
      rw [Ordered] at hs ht
      exact eq_patchedL fo xs ys hs ht
    | _ => exact eq_mixed fo ⟨by simp, by simp⟩
  | .obj ms, t, hs, ht => by
    cases t with
    | obj ns =>
      rw [patched_obj]
      by_cases h1 : eqV fo (.obj ms) (.obj ns) = true
      · rw [if_pos h1, h1, eqV_right_self fo h1]
      rw [if_neg h1, eqV, eqV]
      have hs' := hs
      rw [Ordered] at hs ht
      refine eqM_ext fo (sorted_addNew _ _ _ (sorted_patchedM fo hs.1)) ht.1 fun k => ?_
      rw [lookup_addNew ht.1, lookup_patchedM fo ms hs.1]
      cases hk : lookup k ms with
      | none =>
        cases hl : lookup k ns with
        | none => exact .inl ⟨rfl, rfl⟩
        | some y => exact .inr ⟨y, y, rfl, rfl, rfl⟩
      | some v =>
        cases hl : lookup k ns with
        | none => exact .inl ⟨rfl, rfl⟩
        | some y =>
          exact .inr ⟨_, y, rfl, rfl, eq_patchedM fo ms hs.2 k v (lookup_mem hk) y (orderedM_mem ht.2 (lookup_mem hl))⟩
    | _ => exact eq_mixed fo ⟨by simp, by simp⟩
  | .null, t, _, _ | .bool _, t, _, _ | .int _, t, _, _ | .uint _, t, _, _ | .float _, t, _, _ | .str _, t, _, _ =>
    eq_mixed fo ⟨by simp, by simp⟩
theorem eq_patchedL (fo : FloatOrder F L) : ∀ (xs ys : List (Json F)), OrderedL xs → OrderedL ys →
    eqL fo (patchedL fo xs ys) ys = eqL fo ys ys
  | [], ys, _, _ => by rw [patchedL]
  | x :: xs, [], _, _ => by rw [patchedL]
  | x :: xs, y :: ys, hs, ht => by
    rw [OrderedL] at hs ht
    rw [patchedL, eqL, eqL, eq_patched fo x y hs.1 ht.1, eq_patchedL fo xs ys hs.2 ht.2]
theorem eq_patchedM (fo : FloatOrder F L) : ∀ (ms : List (Bytes × Json F)), OrderedM ms → ∀ k v, (k, v) ∈ ms →
    ∀ w, Ordered w → eqV fo (patched fo v w) w = eqV fo w w
  | [], _, _, _, h, _, _ => by simp at h
  | (l, u) :: ms, ho, k, v, h, w, hw => by
    rw [OrderedM] at ho
    by_cases e : (k, v) = (l, u)
    · cases e; exact eq_patched fo u w ho.1 hw
    · exact eq_patchedM fo ms ho.2 k v ((List.mem_cons.mp h).resolve_left e) w hw
end

end Verif.Json
