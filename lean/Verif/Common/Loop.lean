/-!
# Counted loops over fixed-size arrays

`forLoop n body s` is `for (i = 0; i < n; i++) s = body(i, s)`, and a fixed-size array of
`n` elements is a function on `Fin n`; `upd` is the store of one element.
-/

namespace Verif

/-- `for (i = 0; i < n; i++) s = body(i, s)` -/
def forLoop (n : Nat) (body : Fin n → σ → σ) (s : σ) : σ := Fin.foldl n (fun s i => body i s) s

/-- `x[i] = v` -/
def upd (x : Fin n → α) (i : Fin n) (v : α) : Fin n → α := fun j => if j = i then v else x j

theorem forLoop_succ (n : Nat) (body : Fin (n + 1) → σ → σ) (s : σ) :
    forLoop (n + 1) body s = body (Fin.last n) (forLoop n (fun i => body i.castSucc) s) := by
  unfold forLoop; rw [Fin.foldl_succ_last]

@[simp] theorem forLoop_zero (body : Fin 0 → σ → σ) (s : σ) : forLoop 0 body s = s := by
  simp [forLoop]

/-- loop invariant rule -/
theorem forLoop_inv {n : Nat} {body : Fin n → σ → σ} {s : σ} (P : Nat → σ → Prop) (h0 : P 0 s)
    (hs : ∀ (i : Fin n) (s : σ), P i.1 s → P (i.1 + 1) (body i s)) : P n (forLoop n body s) := by
  induction n with
  | zero => simpa using h0
  | succ n ih =>
    rw [forLoop_succ]
    exact hs (Fin.last n) _ (ih (body := fun i => body i.castSucc) fun i s h => hs i.castSucc s h)

/-- two loops with related states -/
theorem forLoop_rel {n : Nat} {b1 : Fin n → σ → σ} {b2 : Fin n → τ → τ} {s : σ} {t : τ}
    (R : σ → τ → Prop) (h0 : R s t) (hs : ∀ i s t, R s t → R (b1 i s) (b2 i t)) :
    R (forLoop n b1 s) (forLoop n b2 t) := by
  induction n with
  | zero => simpa using h0
  | succ n ih =>
    rw [forLoop_succ, forLoop_succ]
    exact hs _ _ _ (ih fun i s t h => hs _ s t h)

@[simp] theorem upd_same (x : Fin n → α) (i : Fin n) (v : α) : upd x i v i = v := by simp [upd]
theorem upd_ne (x : Fin n → α) {i j : Fin n} (h : j ≠ i) (v : α) : upd x i v j = x j := by simp [upd, h]

/-- writing `f i (x i)` into each element in turn -/
theorem forLoop_upd_each {n : Nat} (f : Fin n → α → α) (x : Fin n → α) :
    forLoop n (fun i x => upd x i (f i (x i))) x = fun i => f i (x i) := by
  have := forLoop_inv (body := fun i (y : Fin n → α) => upd y i (f i (y i))) (s := x)
    (fun k y => ∀ i : Fin n, y i = if i.1 < k then f i (x i) else x i) (fun i => by simp)
    (fun i y h j => by
      by_cases hj : j = i
      · subst hj; simp [h]
      · rw [upd_ne _ hj, h j]
        have : j.1 ≠ i.1 := fun e => hj (Fin.ext e)
        by_cases h1 : j.1 < i.1
        · rw [if_pos h1, if_pos (by omega)]
        · rw [if_neg h1, if_neg (by omega)])
  funext i
  rw [this i, if_pos i.2]

/-- filling an uninitialised array -/
theorem forLoop_fill {n : Nat} (f : Fin n → α) (x : Fin n → α) :
    forLoop n (fun i x => upd x i (f i)) x = f := by
  have := forLoop_upd_each (fun i _ => f i) x
  exact this

end Verif
