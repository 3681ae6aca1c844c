import Verif.TrivialString.Model

/-!
# C69: trivial strings
-/

namespace Verif.TrivialString

theorem takeWhile_nul (s : List Char) (t : List Char) (h : nul ∉ s) :
    (s ++ nul :: t).takeWhile (· != nul) = s := by
  induction s with
  | nil => simp
  | cons c cs ih =>
    have hc : c ≠ nul := fun e => h (by simp [e])
    have := ih fun hh => h (by simp [hh])
    simp [hc, this]

/-- **C69 (partial)** Every string without NUL that is shorter than the capacity is stored
and read back unchanged, whatever the buffer held before.  Missing: rejection of longer
strings, see `C69_too_long_fails`. -/
theorem C69_round_trip_partial (buf s : List Char) (hl : s.length < buf.length) (hn : nul ∉ s) :
    ∃ b, toTrivial buf s = .ok b ∧ b.length = buf.length ∧ str b = .ok s := by
  have hb : s.takeWhile (· != nul) = s := by
    clear hl
    induction s with
    | nil => rfl
    | cons c cs ih =>
      have hc : c ≠ nul := fun e => hn (by simp [e])
      have := ih fun hh => hn (by simp [hh])
      simp [hc, this]
  refine ⟨s ++ nul :: buf.drop (s.length + 1), ?_, by simp; omega, ?_⟩
  · simp only [toTrivial, hb]; rw [if_pos (by omega)]
  · rw [str, if_pos (by simp), takeWhile_nul _ _ hn]

example : "abc".toList.length < (List.replicate 4 'x').length ∧ nul ∉ "abc".toList := by decide

/-- **C69 fails** A string that does not fit overruns the buffer; nothing rejects it. -/
theorem C69_too_long_fails (buf s : List Char) (hl : buf.length ≤ s.length) (hn : nul ∉ s) :
    toTrivial buf s = .ub := by
  have hb : s.takeWhile (· != nul) = s := by
    clear hl
    induction s with
    | nil => rfl
    | cons c cs ih =>
      have hc : c ≠ nul := fun e => hn (by simp [e])
      have := ih fun hh => hn (by simp [hh])
      simp [hc, this]
  simp only [toTrivial, hb]; rw [if_neg (by omega)]

example : (List.replicate 3 'x').length ≤ "abc".toList.length ∧ nul ∉ "abc".toList := by decide

/-- **C69** A string with an embedded NUL comes back cut at it. -/
theorem C69_embedded_nul_truncates (buf s t : List Char) (hl : s.length < buf.length) (hn : nul ∉ s) :
    ∃ b, toTrivial buf (s ++ nul :: t) = .ok b ∧ str b = .ok s := by
  have hb := takeWhile_nul s t hn
  refine ⟨s ++ nul :: buf.drop (s.length + 1), ?_, ?_⟩
  · simp only [toTrivial, hb]; rw [if_pos (by omega)]
  · rw [str, if_pos (by simp), takeWhile_nul _ _ hn]

example : ∃ b, toTrivial ['x', 'x', 'x', 'x'] ['a', 'b', nul, 'c', 'd', 'e'] = .ok b ∧ str b = .ok ['a', 'b'] :=
  C69_embedded_nul_truncates ['x', 'x', 'x', 'x'] ['a', 'b'] ['c', 'd', 'e'] (by decide) (by decide)

theorem nul_takeWhile (l : List Char) : nul ∉ l.takeWhile (· != nul) := by
  induction l with
  | nil => simp
  | cons c cs ih =>
    by_cases h : c = nul
    · simp [h]
    · simp [h, ih, Ne.symm h]

/-- **C69** exactly: a string comes back unchanged if and only if it has no NUL and is shorter
than the capacity. -/
theorem C69_round_trip_iff (buf s : List Char) :
    (∃ b, toTrivial buf s = .ok b ∧ str b = .ok s) ↔ s.length < buf.length ∧ nul ∉ s := by
  constructor
  · rintro ⟨b, e1, e2⟩
    have hn : nul ∉ s := by
      rw [str] at e2
      split at e2
      · simp only [Outcome.ok.injEq] at e2
        intro hm
        rw [← e2] at hm
        exact nul_takeWhile b hm
      · simp at e2
    refine ⟨?_, hn⟩
    refine Classical.byContradiction fun hl => ?_
    rw [C69_too_long_fails buf s (by omega) hn] at e1
    simp at e1
  · rintro ⟨hl, hn⟩
    obtain ⟨b, e1, -, e2⟩ := C69_round_trip_partial buf s hl hn
    exact ⟨b, e1, e2⟩

/-- **C69** Character access: exact below the capacity, rejected above it... -/
theorem C69_access_partial (buf : List Char) (n : Nat) :
    (∀ h : n < buf.length, get buf n = .ok buf[n]) ∧ (buf.length < n → get buf n = .assertFail) := by
  refine ⟨fun h => by simp [get, Nat.le_of_lt h, h], fun h => by rw [get, if_neg (by omega)]⟩

/-- **C69 fails** ...but the index equal to the capacity passes the assertion and leaves the
buffer. -/
theorem C69_access_at_capacity_fails (buf : List Char) : get buf buf.length = .ub := by
  simp [get]

end Verif.TrivialString
