import Verif.Json.CborRead

/-!
# The CBOR reader always comes to an end, and what it does at the end of the input
-/

namespace Verif.Json
open Spec Spec.Cbor

/-! ## How the reader ends -/

/-- the ways the reader can end, with at most `n` bytes left -/
def Ends (m : Mach) (ex : Bool) (L : Nat) (n : Nat) : Rd (α × Bytes) → Prop
  | .ok (_, r) => r.length ≤ n
  | .fail id => id = 110 ∨ id = 112 ∨ id = 113
  | .threw k => (k = "out_of_range.408" ∧ (m.maxArr < noSize ∨ m.maxObj < noSize)) ∨
      (k = "std::length_error" ∧ m.maxStr < 2 ^ 64 ∧ (ex = true → m.maxStr < L))
  | .running => False

theorem Ends.bind {m : Mach} {ex : Bool} {L n n' : Nat} {x : Rd (α × Bytes)} {f : α × Bytes → Rd (β × Bytes)}
    (h : Ends m ex L n x) (hf : ∀ a r, r.length ≤ n → Ends m ex L n' (f (a, r))) : Ends m ex L n' (x.bind f) := by
  match x, h with
  | .ok (a, r), h => exact hf a r h
  | .fail id, h => exact h
  | .threw k, h => exact h

theorem Ends.ite {m : Mach} {ex : Bool} {L n : Nat} {p : Prop} [Decidable p] {x y : Rd (α × Bytes)}
    (hx : p → Ends m ex L n x) (hy : ¬ p → Ends m ex L n y) : Ends m ex L n (if p then x else y) := by
  by_cases h : p
  · rw [if_pos h]; exact hx h
  · rw [if_neg h]; exact hy h

theorem Ends.mono {m : Mach} {ex : Bool} {L n n' : Nat} (hn : n ≤ n') : ∀ {x : Rd (α × Bytes)},
    Ends m ex L n x → Ends m ex L n' x
  | .ok (_, r), h => by simp only [Ends] at h ⊢; omega
  | .fail _, h => h
  | .threw _, h => h

/-- the bytes of the input -/
def AllBytes (s : Bytes) : Prop := ∀ b ∈ s, b < 256

theorem AllBytes.tail {c : Nat} {s : Bytes} (h : AllBytes (c :: s)) : AllBytes s :=
  fun b hb => h b (List.mem_cons_of_mem _ hb)

theorem AllBytes.right {t s : Bytes} (h : AllBytes (t ++ s)) : AllBytes s :=
  fun b hb => h b (List.mem_append_right _ hb)

theorem AllBytes.left {t s : Bytes} (h : AllBytes (t ++ s)) : AllBytes t :=
  fun b hb => h b (List.mem_append_left _ hb)

theorem getNumber_ends (m : Mach) (ex : Bool) (L w : Nat) (s : Bytes) :
    Ends m ex L s.length (getNumber m false w s) := by
  rcases getNumber_cases m w s with ⟨bs, r, rfl, _, e⟩ | e
  · rw [e]; simp [Ends]
  · rw [e]; simp [Ends]

theorem getNumber_ends' (m : Mach) (ex : Bool) (L n w : Nat) {s : Bytes} (hw : w ≤ 8) (hs : AllBytes s)
    {f : Nat × Bytes → Rd (β × Bytes)}
    (hf : ∀ k r, r.length ≤ s.length → AllBytes r → k < 2 ^ 64 → Ends m ex L n (f (k, r))) :
    Ends m ex L n ((getNumber m false w s).bind f) := by
  rcases getNumber_cases m w s with ⟨bs, r, rfl, hl, e⟩ | e
  · rw [e]
    refine hf _ _ (by simp) hs.right ?_
    have := big_lt (fun b hb => hs.left b hb)
    calc big bs < 256 ^ bs.length := this
      _ ≤ 256 ^ 8 := Nat.pow_le_pow_right (by omega) (by omega)
      _ = 2 ^ 64 := by decide
  · rw [e]; simp [Ends]

theorem takeString_ends (m : Mach) (ex : Bool) {L len : Nat} {s : Bytes} (hl : len < 2 ^ 64) (hL : s.length ≤ L) :
    Ends m ex L s.length (takeString m ex len s) := by
  rw [takeString]
  refine Ends.ite (fun h => Ends.ite (fun _ => by simp [Ends]) fun h' => ?_) fun h => Ends.ite (fun _ => by simp [Ends])
    fun hx => Ends.ite (fun _ => by simp [Ends]) fun h' => ?_
  · exact .inr ⟨rfl, by omega, fun _ => by omega⟩
  · exact .inr ⟨rfl, by omega, fun h => absurd h hx⟩

mutual
theorem cborString_ends (m : Mach) (ex : Bool) (L : Nat) : ∀ (fuel c : Nat) (s : Bytes), AllBytes s →
    s.length ≤ L → 2 * s.length + 2 ≤ fuel → Ends m ex L s.length (cborString m ex fuel (some c) s)
  | 0, c, s, hs, hL, hf => by omega
  | fuel + 1, c, s, hs, hL, hf => by
    have num : ∀ w, w ≤ 8 → Ends m ex L s.length ((getNumber m false w s).bind fun p => takeString m ex p.1 p.2) :=
      fun w hw => getNumber_ends' m ex L _ w hw hs fun k r hr hb hk =>
        (takeString_ends m ex hk (by omega)).mono hr
    rw [cborString]
    refine Ends.ite (fun _ => takeString_ends m ex (by omega) hL) fun _ => ?_
    refine Ends.ite (fun _ => num 1 (by omega)) fun _ => ?_
    refine Ends.ite (fun _ => num 2 (by omega)) fun _ => ?_
    refine Ends.ite (fun _ => num 4 (by omega)) fun _ => ?_
    refine Ends.ite (fun _ => num 8 (by omega)) fun _ => ?_
    refine Ends.ite (fun _ => cborChunks_ends m ex L fuel s hs hL (by omega)) fun _ => ?_
    simp [Ends]
theorem cborChunks_ends (m : Mach) (ex : Bool) (L : Nat) : ∀ (fuel : Nat) (s : Bytes), AllBytes s →
    s.length ≤ L → 2 * s.length + 1 ≤ fuel → Ends m ex L s.length (cborChunks m ex fuel s)
  | fuel, [], _, _, _ => by cases fuel <;> simp [cborChunks, Ends]
  | 0, _ :: _, _, _, hf => by omega
  | fuel + 1, c :: s, hs, hL, hf => by
    simp only [List.length_cons] at hf hL
    rw [cborChunks]
    refine Ends.ite (fun _ => by simp [Ends]) fun _ => ?_
    have h1 := cborString_ends m ex L fuel c s hs.tail (by omega) (by omega)
    cases e : cborString m ex fuel (some c) s with
    | running => rw [e] at h1; exact h1.elim
    | fail id => rw [e] at h1; exact h1
    | threw k => rw [e] at h1; exact h1
    | ok p =>
      obtain ⟨a, r⟩ := p
      rw [e] at h1
      simp only [Ends] at h1
      obtain ⟨q, e', _⟩ := cborString_sound m ex fuel c s a r hs.tail e
      have hr : AllBytes r := (show AllBytes (q ++ r) by rw [← e']; exact hs).right
      rw [Rd.ok_bind]
      refine Ends.bind (cborChunks_ends m ex L fuel r hr (by omega) (by omega)) fun a' r' h' => ?_
      simp only [Ends, List.length_cons]
      omega
end

/-- after a value, or a name, has been read -/
theorem ends_after_string (m : Mach) (ex : Bool) {L n c : Nat} {s : Bytes} (hs : AllBytes (c :: s)) (hL : s.length ≤ L)
    {f : Bytes × Bytes → Rd (β × Bytes)} (hf : ∀ a r, r.length ≤ s.length → AllBytes r → Ends m ex L n (f (a, r))) :
    Ends m ex L n ((cborString m ex (2 * s.length + 2) (some c) s).bind f) := by
  have h1 := cborString_ends m ex L (2 * s.length + 2) c s hs.tail hL (Nat.le_refl _)
  cases e : cborString m ex (2 * s.length + 2) (some c) s with
  | running => rw [e] at h1; exact h1.elim
  | fail id => rw [e] at h1; exact h1
  | threw k => rw [e] at h1; exact h1
  | ok p =>
    obtain ⟨a, r⟩ := p
    rw [e] at h1
    obtain ⟨q, e', _⟩ := cborString_sound m ex _ c s a r hs.tail e
    exact hf a r h1 (show AllBytes (q ++ r) by rw [← e']; exact hs).right

theorem ends_after_value (m : Mach) (ex : Bool) {L n fuel c : Nat} {s : Bytes} (hs : AllBytes (c :: s))
    (h1 : Ends m ex L s.length (cborV m ex fuel (some c) s))
    {f : List (Event Nat) × Bytes → Rd (β × Bytes)} (hf : ∀ a r, r.length ≤ s.length → AllBytes r → Ends m ex L n (f (a, r))) :
    Ends m ex L n ((cborV m ex fuel (some c) s).bind f) := by
  cases e : cborV m ex fuel (some c) s with
  | running => rw [e] at h1; exact h1.elim
  | fail id => rw [e] at h1; exact h1
  | threw k => rw [e] at h1; exact h1
  | ok p =>
    obtain ⟨a, r⟩ := p
    rw [e] at h1
    obtain ⟨q, _, e', _⟩ := cborV_sound m ex fuel c s r a hs.tail e
    exact hf a r h1 (show AllBytes (q ++ r) by rw [← e']; exact hs).right

theorem getHalf_ends (m : Mach) (ex : Bool) (L : Nat) (s : Bytes) :
    Ends m ex L s.length ((getHalf s).bind fun p => .ok ([(Event.float p.1 : Event Nat)], p.2)) := by
  match s with
  | [] => simp [getHalf, Ends]
  | [_] => simp [getHalf, Ends]
  | _ :: _ :: s => simp [getHalf, Ends]; omega

mutual
theorem cborV_ends (m : Mach) (ex : Bool) (L : Nat) : ∀ (fuel c : Nat) (s : Bytes), AllBytes (c :: s) →
    s.length ≤ L → 3 * s.length + 3 ≤ fuel → Ends m ex L s.length (cborV m ex fuel (some c) s)
  | 0, c, s, _, _, hf => by omega
  | fuel + 1, c, s, hs, hL, hf => by
    have num : ∀ (w : Nat) (g : Nat → Event Nat), w ≤ 8 →
        Ends m ex L s.length ((getNumber m false w s).bind fun p => .ok ([g p.1], p.2)) :=
      fun w g hw => getNumber_ends' m ex L _ w hw hs.tail fun k r hr _ _ => by simpa [Ends] using hr
    have arr : ∀ w, w ≤ 8 → Ends m ex L s.length ((getNumber m false w s).bind fun p => cborArr m ex fuel p.1 p.2) :=
      fun w hw => getNumber_ends' m ex L _ w hw hs.tail fun k r hr hb hk =>
        (cborArr_ends m ex L fuel k r hb (by omega) hk (by omega)).mono hr
    have obj : ∀ w, w ≤ 8 → Ends m ex L s.length ((getNumber m false w s).bind fun p => cborObj m ex fuel p.1 p.2) :=
      fun w hw => getNumber_ends' m ex L _ w hw hs.tail fun k r hr hb hk =>
        (cborObj_ends m ex L fuel k r hb (by omega) hk (by omega)).mono hr
    have one : ∀ evs : List (Event Nat), Ends m ex L s.length (.ok (evs, s)) := fun _ => Nat.le_refl _
    rw [cborV]
    refine Ends.ite (fun _ => one _) fun _ => ?_
    refine Ends.ite (fun _ => num 1 _ (by omega)) fun _ => ?_
    refine Ends.ite (fun _ => num 2 _ (by omega)) fun _ => ?_
    refine Ends.ite (fun _ => num 4 _ (by omega)) fun _ => ?_
    refine Ends.ite (fun _ => num 8 _ (by omega)) fun _ => ?_
    refine Ends.ite (fun _ => one _) fun _ => ?_
    refine Ends.ite (fun _ => num 1 (fun n => .int (-1 - n)) (by omega)) fun _ => ?_
    refine Ends.ite (fun _ => num 2 (fun n => .int (-1 - n)) (by omega)) fun _ => ?_
    refine Ends.ite (fun _ => num 4 (fun n => .int (-1 - n)) (by omega)) fun _ => ?_
    refine Ends.ite (fun _ => num 8 (fun n => .int (-1 - toSigned n)) (by omega)) fun _ => ?_
    refine Ends.ite (fun _ => ends_after_string m ex hs hL fun a r hr _ => by simpa [Ends] using hr) fun _ => ?_
    refine Ends.ite (fun _ => cborArr_ends m ex L fuel _ s hs.tail hL (by omega) (by omega)) fun _ => ?_
    refine Ends.ite (fun _ => arr 1 (by omega)) fun _ => ?_
    refine Ends.ite (fun _ => arr 2 (by omega)) fun _ => ?_
    refine Ends.ite (fun _ => arr 4 (by omega)) fun _ => ?_
    refine Ends.ite (fun _ => arr 8 (by omega)) fun _ => ?_
    refine Ends.ite (fun _ => cborArr_ends m ex L fuel _ s hs.tail hL (by rw [noSize]; omega) (by omega)) fun _ => ?_
    refine Ends.ite (fun _ => cborObj_ends m ex L fuel _ s hs.tail hL (by omega) (by omega)) fun _ => ?_
    refine Ends.ite (fun _ => obj 1 (by omega)) fun _ => ?_
    refine Ends.ite (fun _ => obj 2 (by omega)) fun _ => ?_
    refine Ends.ite (fun _ => obj 4 (by omega)) fun _ => ?_
    refine Ends.ite (fun _ => obj 8 (by omega)) fun _ => ?_
    refine Ends.ite (fun _ => cborObj_ends m ex L fuel _ s hs.tail hL (by rw [noSize]; omega) (by omega)) fun _ => ?_
    refine Ends.ite (fun _ => one _) fun _ => ?_
    refine Ends.ite (fun _ => one _) fun _ => ?_
    refine Ends.ite (fun _ => one _) fun _ => ?_
    refine Ends.ite (fun _ => getHalf_ends m ex L s) fun _ => ?_
    refine Ends.ite (fun _ => num 4 (fun n => .float (readSingle n)) (by omega)) fun _ => ?_
    refine Ends.ite (fun _ => num 8 _ (by omega)) fun _ => ?_
    simp [Ends]
theorem cborArr_ends (m : Mach) (ex : Bool) (L : Nat) : ∀ (fuel len : Nat) (s : Bytes), AllBytes s →
    s.length ≤ L → len < 2 ^ 64 → 3 * s.length + 2 ≤ fuel → Ends m ex L s.length (cborArr m ex fuel len s)
  | 0, len, s, _, _, _, hf => by omega
  | fuel + 1, len, s, hs, hL, hl, hf => by
    rw [cborArr]
    refine Ends.ite (fun h => Ends.ite (fun h' => .inl ⟨rfl, .inl ?_⟩) fun _ => ?_) fun _ => ?_
    · rw [noSize]; omega
    · exact Ends.bind (cborElems_ends m ex L fuel len s hs hL (by omega)) fun a r hr => by simpa [Ends] using hr
    · exact Ends.bind (cborElemsUntil_ends m ex L fuel s hs hL (by omega)) fun a r hr => by simpa [Ends] using hr
theorem cborElems_ends (m : Mach) (ex : Bool) (L : Nat) : ∀ (fuel n : Nat) (s : Bytes), AllBytes s →
    s.length ≤ L → 3 * s.length + 1 ≤ fuel → Ends m ex L s.length (cborElems m ex fuel n s)
  | fuel, 0, s, _, _, _ => by cases fuel <;> simp [cborElems, Ends]
  | fuel, _ + 1, [], _, _, _ => by cases fuel <;> simp [cborElems, Ends]
  | 0, _ + 1, _ :: _, _, _, hf => by omega
  | fuel + 1, n + 1, c :: s, hs, hL, hf => by
    simp only [List.length_cons] at hf hL
    rw [cborElems]
    refine ends_after_value m ex hs (cborV_ends m ex L fuel c s hs (by omega) (by omega)) fun a r hr hb => ?_
    refine Ends.bind (cborElems_ends m ex L fuel n r hb (by omega) (by omega)) fun a' r' h' => ?_
    simp only [Ends, List.length_cons]
    omega
theorem cborElemsUntil_ends (m : Mach) (ex : Bool) (L : Nat) : ∀ (fuel : Nat) (s : Bytes), AllBytes s →
    s.length ≤ L → 3 * s.length + 1 ≤ fuel → Ends m ex L s.length (cborElemsUntil m ex fuel s)
  | fuel, [], _, _, _ => by cases fuel <;> simp [cborElemsUntil, Ends]
  | 0, _ :: _, _, _, hf => by omega
  | fuel + 1, c :: s, hs, hL, hf => by
    simp only [List.length_cons] at hf hL
    rw [cborElemsUntil]
    refine Ends.ite (fun _ => by simp [Ends]) fun _ => ?_
    refine ends_after_value m ex hs (cborV_ends m ex L fuel c s hs (by omega) (by omega)) fun a r hr hb => ?_
    refine Ends.bind (cborElemsUntil_ends m ex L fuel r hb (by omega) (by omega)) fun a' r' h' => ?_
    simp only [Ends, List.length_cons]
    omega
theorem cborObj_ends (m : Mach) (ex : Bool) (L : Nat) : ∀ (fuel len : Nat) (s : Bytes), AllBytes s →
    s.length ≤ L → len < 2 ^ 64 → 3 * s.length + 2 ≤ fuel → Ends m ex L s.length (cborObj m ex fuel len s)
  | 0, len, s, _, _, _, hf => by omega
  | fuel + 1, len, s, hs, hL, hl, hf => by
    rw [cborObj]
    refine Ends.ite (fun h => Ends.ite (fun h' => .inl ⟨rfl, .inr ?_⟩) fun _ => ?_) fun _ => ?_
    · rw [noSize]; omega
    · exact Ends.bind (cborMembers_ends m ex L fuel len s hs hL (by omega)) fun a r hr => by simpa [Ends] using hr
    · exact Ends.bind (cborMembersUntil_ends m ex L fuel s hs hL (by omega)) fun a r hr => by simpa [Ends] using hr
theorem cborMembers_ends (m : Mach) (ex : Bool) (L : Nat) : ∀ (fuel n : Nat) (s : Bytes), AllBytes s →
    s.length ≤ L → 3 * s.length + 1 ≤ fuel → Ends m ex L s.length (cborMembers m ex fuel n s)
  | fuel, 0, s, _, _, _ => by cases fuel <;> simp [cborMembers, Ends]
  | fuel, _ + 1, [], _, _, _ => by cases fuel <;> simp [cborMembers, Ends]
  | 0, _ + 1, _ :: _, _, _, hf => by omega
  | fuel + 1, n + 1, c :: s, hs, hL, hf => by
    simp only [List.length_cons] at hf hL
    rw [cborMembers]
    refine ends_after_string m ex hs (by omega) fun k r0 h0 hb0 => ?_
    match r0, h0, hb0 with
    | [], _, _ => cases fuel <;> simp [cborV, Ends]
    | d :: r0, h0, hb0 =>
      simp only [List.length_cons] at h0
      refine ends_after_value m ex hb0 (cborV_ends m ex L fuel d r0 hb0 (by omega) (by omega)) fun a r hr hb => ?_
      refine Ends.bind (cborMembers_ends m ex L fuel n r hb (by omega) (by omega)) fun a' r' h' => ?_
      simp only [Ends, List.length_cons]
      omega
theorem cborMembersUntil_ends (m : Mach) (ex : Bool) (L : Nat) : ∀ (fuel : Nat) (s : Bytes), AllBytes s →
    s.length ≤ L → 3 * s.length + 1 ≤ fuel → Ends m ex L s.length (cborMembersUntil m ex fuel s)
  | fuel, [], _, _, _ => by cases fuel <;> simp [cborMembersUntil, Ends]
  | 0, _ :: _, _, _, hf => by omega
  | fuel + 1, c :: s, hs, hL, hf => by
    simp only [List.length_cons] at hf hL
    rw [cborMembersUntil]
    refine Ends.ite (fun _ => by simp [Ends]) fun _ => ?_
    refine ends_after_string m ex hs (by omega) fun k r0 h0 hb0 => ?_
    match r0, h0, hb0 with
    | [], _, _ => cases fuel <;> simp [cborV, Ends]
    | d :: r0, h0, hb0 =>
      simp only [List.length_cons] at h0
      refine ends_after_value m ex hb0 (cborV_ends m ex L fuel d r0 hb0 (by omega) (by omega)) fun a r hr hb => ?_
      refine Ends.bind (cborMembersUntil_ends m ex L fuel r hb (by omega) (by omega)) fun a' r' h' => ?_
      simp only [Ends, List.length_cons]
      omega
end

/-! ## More input -/

/-- what the reader does if the input goes on with `q`: the same, unless it met the end of the input -/
def Goes (q : Bytes) (x y : Rd (α × Bytes)) : Prop :=
  match x with
  | .ok (a, r) => y = .ok (a, r ++ q)
  | .fail id => id = 110 ∨ y = .fail id
  | .threw k => y = .threw k
  | .running => True

theorem Goes.bind {q : Bytes} {x y : Rd (α × Bytes)} {f g : α × Bytes → Rd (β × Bytes)} (h : Goes q x y)
    (hf : ∀ a r, Goes q (f (a, r)) (g (a, r ++ q))) : Goes q (x.bind f) (y.bind g) := by
  match x, h with
  | .ok (a, r), h => simp only [Goes] at h; rw [h]; exact hf a r
  | .fail id, h =>
    rcases h with h | h
    · exact .inl h
    · rw [h]; exact .inr rfl
  | .threw k, h => simp only [Goes] at h; rw [h]; rfl
  | .running, _ => trivial

theorem Goes.ite {q : Bytes} {p : Prop} [Decidable p] {x y x' y' : Rd (α × Bytes)} (hx : Goes q x x')
    (hy : Goes q y y') : Goes q (if p then x else y) (if p then x' else y') := by
  by_cases h : p
  · rw [if_pos h, if_pos h]; exact hx
  · rw [if_neg h, if_neg h]; exact hy

theorem getNumber_goes (m : Mach) (w : Nat) (s q : Bytes) :
    Goes q (getNumber m false w s) (getNumber m false w (s ++ q)) := by
  rcases getNumber_cases m w s with ⟨bs, r, rfl, hl, e⟩ | e
  · rw [e, List.append_assoc, getNumber_append m hl]; rfl
  · rw [e]; exact .inl rfl

theorem takeString_goes (m : Mach) (ex : Bool) (len : Nat) (s q : Bytes) :
    Goes q (takeString m ex len s) (takeString m ex len (s ++ q)) := by
  rw [takeString, takeString]
  by_cases h : len ≤ s.length
  · rw [if_pos h, if_pos (show len ≤ (s ++ q).length by rw [List.length_append]; omega)]
    refine Goes.ite ?_ (Eq.refl (Rd.threw "std::length_error"))
    simp only [Goes]
    rw [List.take_append_of_le_length h, List.drop_append_of_le_length h]
  · rw [if_neg h]
    by_cases hx : ex = true
    · rw [if_pos hx]; exact .inl rfl
    · rw [if_neg hx]
      by_cases hm : len ≤ m.maxStr
      · rw [if_pos hm]; exact .inl rfl
      · rw [if_neg hm]
        simp only [Goes, if_neg hm, ite_self]

theorem getHalf_goes (s q : Bytes) :
    Goes q ((getHalf s).bind fun p => .ok ([(Event.float p.1 : Event Nat)], p.2))
      ((getHalf (s ++ q)).bind fun p => .ok ([(Event.float p.1 : Event Nat)], p.2)) := by
  match s with
  | [] => exact .inl rfl
  | [_] => exact .inl rfl
  | _ :: _ :: _ => rfl

mutual
theorem cborString_goes (m : Mach) (ex : Bool) (q : Bytes) : ∀ (fuel fuel' c : Nat) (s : Bytes), fuel ≤ fuel' →
    Goes q (cborString m ex fuel (some c) s) (cborString m ex fuel' (some c) (s ++ q))
  | 0, _, c, s, _ => by rw [cborString]; trivial
  | fuel + 1, 0, c, s, hf => by omega
  | fuel + 1, fuel' + 1, c, s, hf => by
    rw [cborString, cborString]
    have num : ∀ w, Goes q ((getNumber m false w s).bind fun p => takeString m ex p.1 p.2)
        ((getNumber m false w (s ++ q)).bind fun p => takeString m ex p.1 p.2) :=
      fun w => (getNumber_goes m w s q).bind fun a r => takeString_goes m ex a r q
    exact Goes.ite (takeString_goes m ex _ s q) (Goes.ite (num 1) (Goes.ite (num 2) (Goes.ite (num 4) (Goes.ite (num 8)
      (Goes.ite (cborChunks_goes m ex q fuel fuel' s (by omega)) (.inr rfl))))))
theorem cborChunks_goes (m : Mach) (ex : Bool) (q : Bytes) : ∀ (fuel fuel' : Nat) (s : Bytes), fuel ≤ fuel' →
    Goes q (cborChunks m ex fuel s) (cborChunks m ex fuel' (s ++ q))
  | fuel, _, [], _ => by cases fuel <;> (rw [cborChunks]; exact .inl rfl)
  | 0, _, _ :: _, _ => by rw [cborChunks]; trivial
  | fuel + 1, 0, _ :: _, hf => by omega
  | fuel + 1, fuel' + 1, c :: s, hf => by
    rw [List.cons_append, cborChunks, cborChunks]
    refine Goes.ite rfl ?_
    refine Goes.bind (cborString_goes m ex q fuel fuel' c s (by omega)) fun a r => ?_
    exact Goes.bind (cborChunks_goes m ex q fuel fuel' r (by omega)) fun a' r' => rfl
end

mutual
theorem cborV_goes (m : Mach) (ex : Bool) (q : Bytes) : ∀ (fuel fuel' c : Nat) (s : Bytes), fuel ≤ fuel' →
    Goes q (cborV m ex fuel (some c) s) (cborV m ex fuel' (some c) (s ++ q))
  | 0, _, c, s, _ => by rw [cborV]; trivial
  | fuel + 1, 0, c, s, hf => by omega
  | fuel + 1, fuel' + 1, c, s, hf => by
    have num : ∀ (w : Nat) (g : Nat → Event Nat), Goes q ((getNumber m false w s).bind fun p => .ok ([g p.1], p.2))
        ((getNumber m false w (s ++ q)).bind fun p => .ok ([g p.1], p.2)) :=
      fun w g => (getNumber_goes m w s q).bind fun a r => rfl
    have arr : ∀ w, Goes q ((getNumber m false w s).bind fun p => cborArr m ex fuel p.1 p.2)
        ((getNumber m false w (s ++ q)).bind fun p => cborArr m ex fuel' p.1 p.2) :=
      fun w => (getNumber_goes m w s q).bind fun a r => cborArr_goes m ex q fuel fuel' a r (by omega)
    have obj : ∀ w, Goes q ((getNumber m false w s).bind fun p => cborObj m ex fuel p.1 p.2)
        ((getNumber m false w (s ++ q)).bind fun p => cborObj m ex fuel' p.1 p.2) :=
      fun w => (getNumber_goes m w s q).bind fun a r => cborObj_goes m ex q fuel fuel' a r (by omega)
    rw [cborV, cborV]
    refine Goes.ite rfl ?_
    refine Goes.ite (num 1 _) ?_
    refine Goes.ite (num 2 _) ?_
    refine Goes.ite (num 4 _) ?_
    refine Goes.ite (num 8 _) ?_
    refine Goes.ite rfl ?_
    refine Goes.ite (num 1 fun n => .int (-1 - n)) ?_
    refine Goes.ite (num 2 fun n => .int (-1 - n)) ?_
    refine Goes.ite (num 4 fun n => .int (-1 - n)) ?_
    refine Goes.ite (num 8 fun n => .int (-1 - toSigned n)) ?_
    refine Goes.ite ((cborString_goes m ex q _ _ c s (by simp; omega)).bind fun a r => rfl) ?_
    refine Goes.ite (cborArr_goes m ex q fuel fuel' _ s (by omega)) ?_
    refine Goes.ite (arr 1) ?_
    refine Goes.ite (arr 2) ?_
    refine Goes.ite (arr 4) ?_
    refine Goes.ite (arr 8) ?_
    refine Goes.ite (cborArr_goes m ex q fuel fuel' _ s (by omega)) ?_
    refine Goes.ite (cborObj_goes m ex q fuel fuel' _ s (by omega)) ?_
    refine Goes.ite (obj 1) ?_
    refine Goes.ite (obj 2) ?_
    refine Goes.ite (obj 4) ?_
    refine Goes.ite (obj 8) ?_
    refine Goes.ite (cborObj_goes m ex q fuel fuel' _ s (by omega)) ?_
    refine Goes.ite rfl ?_
    refine Goes.ite rfl ?_
    refine Goes.ite rfl ?_
    refine Goes.ite (getHalf_goes s q) ?_
    refine Goes.ite (num 4 fun n => .float (readSingle n)) ?_
    refine Goes.ite (num 8 _) ?_
    exact .inr rfl
theorem cborArr_goes (m : Mach) (ex : Bool) (q : Bytes) : ∀ (fuel fuel' len : Nat) (s : Bytes), fuel ≤ fuel' →
    Goes q (cborArr m ex fuel len s) (cborArr m ex fuel' len (s ++ q))
  | 0, _, len, s, _ => by rw [cborArr]; trivial
  | fuel + 1, 0, _, s, hf => by omega
  | fuel + 1, fuel' + 1, len, s, hf => by
    rw [cborArr, cborArr]
    refine Goes.ite (Goes.ite rfl ?_) ?_
    · exact (cborElems_goes m ex q fuel fuel' len s (by omega)).bind fun a r => rfl
    · exact (cborElemsUntil_goes m ex q fuel fuel' s (by omega)).bind fun a r => rfl
theorem cborElems_goes (m : Mach) (ex : Bool) (q : Bytes) : ∀ (fuel fuel' n : Nat) (s : Bytes), fuel ≤ fuel' →
    Goes q (cborElems m ex fuel n s) (cborElems m ex fuel' n (s ++ q))
  | fuel, fuel', 0, s, _ => by cases fuel <;> cases fuel' <;> simp [cborElems, Goes]
  | fuel, _, _ + 1, [], _ => by cases fuel <;> (rw [cborElems]; exact .inl rfl)
  | 0, _, _ + 1, _ :: _, _ => by rw [cborElems]; trivial
  | fuel + 1, 0, _ + 1, _ :: _, hf => by omega
  | fuel + 1, fuel' + 1, n + 1, c :: s, hf => by
    rw [List.cons_append, cborElems, cborElems]
    refine Goes.bind (cborV_goes m ex q fuel fuel' c s (by omega)) fun a r => ?_
    exact Goes.bind (cborElems_goes m ex q fuel fuel' n r (by omega)) fun a' r' => rfl
theorem cborElemsUntil_goes (m : Mach) (ex : Bool) (q : Bytes) : ∀ (fuel fuel' : Nat) (s : Bytes), fuel ≤ fuel' →
    Goes q (cborElemsUntil m ex fuel s) (cborElemsUntil m ex fuel' (s ++ q))
  | fuel, _, [], _ => by cases fuel <;> (rw [cborElemsUntil]; exact .inl rfl)
  | 0, _, _ :: _, _ => by rw [cborElemsUntil]; trivial
  | fuel + 1, 0, _ :: _, hf => by omega
  | fuel + 1, fuel' + 1, c :: s, hf => by
    rw [List.cons_append, cborElemsUntil, cborElemsUntil]
    refine Goes.ite rfl ?_
    refine Goes.bind (cborV_goes m ex q fuel fuel' c s (by omega)) fun a r => ?_
    exact Goes.bind (cborElemsUntil_goes m ex q fuel fuel' r (by omega)) fun a' r' => rfl
theorem cborObj_goes (m : Mach) (ex : Bool) (q : Bytes) : ∀ (fuel fuel' len : Nat) (s : Bytes), fuel ≤ fuel' →
    Goes q (cborObj m ex fuel len s) (cborObj m ex fuel' len (s ++ q))
  | 0, _, len, s, _ => by rw [cborObj]; trivial
  | fuel + 1, 0, _, s, hf => by omega
  | fuel + 1, fuel' + 1, len, s, hf => by
    rw [cborObj, cborObj]
    refine Goes.ite (Goes.ite rfl ?_) ?_
    · exact (cborMembers_goes m ex q fuel fuel' len s (by omega)).bind fun a r => rfl
    · exact (cborMembersUntil_goes m ex q fuel fuel' s (by omega)).bind fun a r => rfl
theorem cborMembers_goes (m : Mach) (ex : Bool) (q : Bytes) : ∀ (fuel fuel' n : Nat) (s : Bytes), fuel ≤ fuel' →
    Goes q (cborMembers m ex fuel n s) (cborMembers m ex fuel' n (s ++ q))
  | fuel, fuel', 0, s, _ => by cases fuel <;> cases fuel' <;> simp [cborMembers, Goes]
  | fuel, _, _ + 1, [], _ => by cases fuel <;> (rw [cborMembers]; exact .inl rfl)
  | 0, _, _ + 1, _ :: _, _ => by rw [cborMembers]; trivial
  | fuel + 1, 0, _ + 1, _ :: _, hf => by omega
  | fuel + 1, fuel' + 1, n + 1, c :: s, hf => by
    rw [List.cons_append, cborMembers, cborMembers]
    refine Goes.bind (cborString_goes m ex q _ _ c s (by simp; omega)) fun k r0 => ?_
    match r0 with
    | [] => cases fuel <;> (rw [List.head?_nil, cborV]; exact Or.inl rfl)
    | d :: r0 =>
      refine Goes.bind (cborV_goes m ex q fuel fuel' d r0 (by omega)) fun a r => ?_
      exact Goes.bind (cborMembers_goes m ex q fuel fuel' n r (by omega)) fun a' r' => rfl
theorem cborMembersUntil_goes (m : Mach) (ex : Bool) (q : Bytes) : ∀ (fuel fuel' : Nat) (s : Bytes), fuel ≤ fuel' →
    Goes q (cborMembersUntil m ex fuel s) (cborMembersUntil m ex fuel' (s ++ q))
  | fuel, _, [], _ => by cases fuel <;> (rw [cborMembersUntil]; exact .inl rfl)
  | 0, _, _ :: _, _ => by rw [cborMembersUntil]; trivial
  | fuel + 1, 0, _ :: _, hf => by omega
  | fuel + 1, fuel' + 1, c :: s, hf => by
    rw [List.cons_append, cborMembersUntil, cborMembersUntil]
    refine Goes.ite rfl ?_
    refine Goes.bind (cborString_goes m ex q _ _ c s (by simp; omega)) fun k r0 => ?_
    match r0 with
    | [] => cases fuel <;> (rw [List.head?_nil, cborV]; exact Or.inl rfl)
    | d :: r0 =>
      refine Goes.bind (cborV_goes m ex q fuel fuel' d r0 (by omega)) fun a r => ?_
      exact Goes.bind (cborMembersUntil_goes m ex q fuel fuel' r (by omega)) fun a' r' => rfl
end

end Verif.Json
