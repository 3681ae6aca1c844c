import Verif.Png.Model

/-! # Memory and loops -/

namespace Verif.Png

theorem loopFrom_inv {σ : Type} {f : Nat → σ → Outcome σ} (P : Nat → σ → Prop) :
    ∀ (n i : Nat) (s : σ), P i s → (∀ k, i ≤ k → k < i + n → ∀ s, P k s → ∃ s', f k s = .ok s' ∧ P (k + 1) s') →
      ∃ s', loopFrom f n i s = .ok s' ∧ P (i + n) s'
  | 0, i, s, h, _ => ⟨s, rfl, h⟩
  | n + 1, i, s, h, hs => by
    obtain ⟨s1, h1, h2⟩ := hs i (by omega) (by omega) s h
    obtain ⟨s2, h3, h4⟩ := loopFrom_inv P n (i + 1) s1 h2 (fun k hk hk' => hs k (by omega) (by omega))
    refine ⟨s2, ?_, by rw [show i + (n + 1) = i + 1 + n by omega]; exact h4⟩
    rw [loopFrom, h1, Outcome.bind_ok, h3]

/-- a loop whose rounds succeed -/
theorem loop_inv {σ : Type} {f : Nat → σ → Outcome σ} {n : Nat} {s : σ} (P : Nat → σ → Prop) (h0 : P 0 s)
    (hs : ∀ k < n, ∀ s, P k s → ∃ s', f k s = .ok s' ∧ P (k + 1) s') : ∃ s', loop n f s = .ok s' ∧ P n s' := by
  obtain ⟨s', h1, h2⟩ := loopFrom_inv P n 0 s h0 (fun k _ hk => hs k (by omega))
  exact ⟨s', h1, by simpa using h2⟩

theorem loopFrom_post {σ : Type} {f : Nat → σ → Outcome σ} (P : Nat → σ → Prop) (Q : Outcome σ → Prop)
    (hQ : ∀ o : Outcome σ, Q o → ∀ g : σ → Outcome σ, (∀ s, o ≠ .ok s) → Q (o >>= g)) :
    ∀ (n i : Nat) (s : σ), P i s →
      (∀ k, i ≤ k → k < i + n → ∀ s, P k s → (∃ s', f k s = .ok s' ∧ P (k + 1) s') ∨ ((∀ s', f k s ≠ .ok s') ∧ Q (f k s))) →
      (∃ s', loopFrom f n i s = .ok s' ∧ P (i + n) s') ∨ ((∀ s', loopFrom f n i s ≠ .ok s') ∧ Q (loopFrom f n i s))
  | 0, i, s, h, _ => .inl ⟨s, rfl, h⟩
  | n + 1, i, s, h, hs => by
    rcases hs i (by omega) (by omega) s h with ⟨s1, h1, h2⟩ | ⟨h1, h2⟩
    · have := loopFrom_post P Q hQ n (i + 1) s1 h2 (fun k hk hk' => hs k (by omega) (by omega))
      rw [loopFrom, h1, Outcome.bind_ok, show i + (n + 1) = i + 1 + n by omega]
      exact this
    · refine .inr ⟨fun s' => ?_, ?_⟩
      · rw [loopFrom]
        cases hf : f i s with
        | ok v => exact absurd hf (h1 v)
        | _ => intro h; cases h
      · rw [loopFrom]
        exact hQ _ h2 _ h1

theorem load_ok {m : Buf} {i : Nat} {v : UInt8} (hi : i < m.size) (h : m.at_ i = some v) : load m i = .ok v := by
  rw [load, if_pos hi, h]

theorem put_ok {m : Buf} {i : Nat} (v : Option UInt8) (hi : i < m.size) :
    ∃ m', put m i v = .ok m' ∧ m'.size = m.size ∧ m'.at_ i = v ∧ ∀ j, j ≠ i → m'.at_ j = m.at_ j := by
  refine ⟨⟨m.size, fun j => if j = i then v else m.at_ j⟩, by rw [put, if_pos hi], rfl, ?_, fun j hj => ?_⟩
  · simp
  · simp [hj]

theorem store_ok {m : Buf} {i : Nat} (v : UInt8) (hi : i < m.size) :
    ∃ m', store m i v = .ok m' ∧ m'.size = m.size ∧ m'.at_ i = some v ∧ ∀ j, j ≠ i → m'.at_ j = m.at_ j :=
  put_ok (some v) hi

theorem get_ok {raw : List UInt8} {i : Nat} {v : UInt8} (h : raw[i]? = some v) : get raw i = .ok v := by
  rw [get, h]

end Verif.Png
