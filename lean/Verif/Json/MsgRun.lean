import Verif.Json.MsgRead

/-!
# The MessagePack reader always comes to an end, and what it does at the end of the input
-/

namespace Verif.Json
open Spec Spec.Msg

/-! ## How the reader ends -/

theorem msgString_ends (m : Mach) (ex : Bool) (L c : Nat) {s : Bytes} (hs : AllBytes s) (hL : s.length ≤ L) :
    Ends m ex L s.length (msgString m ex (some c) s) := by
  have num : ∀ w, w ≤ 8 → Ends m ex L s.length ((getNumber m false w s).bind fun p => takeString m ex p.1 p.2) :=
    fun w hw => getNumber_ends' m ex L _ w hw hs fun k r hr hb hk =>
      (takeString_ends m ex hk (by omega)).mono hr
  simp only [msgString]
  refine Ends.ite (fun _ => takeString_ends m ex (by omega) hL) fun _ => ?_
  refine Ends.ite (fun _ => num 1 (by omega)) fun _ => ?_
  refine Ends.ite (fun _ => num 2 (by omega)) fun _ => ?_
  refine Ends.ite (fun _ => num 4 (by omega)) fun _ => ?_
  simp [Ends]

theorem msgEnds_after_string (m : Mach) (ex : Bool) {L n c : Nat} {s : Bytes} (hs : AllBytes (c :: s)) (hL : s.length ≤ L)
    {f : Bytes × Bytes → Rd (β × Bytes)} (hf : ∀ a r, r.length ≤ s.length → AllBytes r → Ends m ex L n (f (a, r))) :
    Ends m ex L n ((msgString m ex (some c) s).bind f) := by
  have h1 := msgString_ends m ex L c hs.tail hL
  cases e : msgString m ex (some c) s with
  | running => rw [e] at h1; exact h1.elim
  | fail id => rw [e] at h1; exact h1
  | threw k => rw [e] at h1; exact h1
  | ok p =>
    obtain ⟨a, r⟩ := p
    rw [e] at h1
    obtain ⟨q, e', _⟩ := msgString_sound hs.tail e
    exact hf a r h1 (show AllBytes ((q ++ a) ++ r) by rw [List.append_assoc, ← e']; exact hs).right

theorem msgEnds_after_value (m : Mach) (ex : Bool) {L n fuel c : Nat} {s : Bytes} (hs : AllBytes (c :: s))
    (h1 : Ends m ex L s.length (msgV m ex fuel (some c) s))
    {f : List (Event Nat) × Bytes → Rd (β × Bytes)} (hf : ∀ a r, r.length ≤ s.length → AllBytes r → Ends m ex L n (f (a, r))) :
    Ends m ex L n ((msgV m ex fuel (some c) s).bind f) := by
  cases e : msgV m ex fuel (some c) s with
  | running => rw [e] at h1; exact h1.elim
  | fail id => rw [e] at h1; exact h1
  | threw k => rw [e] at h1; exact h1
  | ok p =>
    obtain ⟨a, r⟩ := p
    rw [e] at h1
    obtain ⟨q, _, e', _⟩ := msgV_sound m ex fuel c s r a hs.tail e
    exact hf a r h1 (show AllBytes (q ++ r) by rw [← e']; exact hs).right

theorem getNumber_ends32 (m : Mach) (ex : Bool) (L n w : Nat) {s : Bytes} (hw : w ≤ 4) (hs : AllBytes s)
    {f : Nat × Bytes → Rd (β × Bytes)}
    (hf : ∀ k r, r.length ≤ s.length → AllBytes r → k < 2 ^ 32 → Ends m ex L n (f (k, r))) :
    Ends m ex L n ((getNumber m false w s).bind f) := by
  rcases getNumber_cases m w s with ⟨bs, r, rfl, hl, e⟩ | e
  · rw [e]
    refine hf _ _ (by simp) hs.right ?_
    have := big_lt (fun b hb => hs.left b hb)
    calc big bs < 256 ^ bs.length := this
      _ ≤ 256 ^ 4 := Nat.pow_le_pow_right (by omega) (by omega)
      _ = 2 ^ 32 := by decide
  · rw [e]; simp [Ends]

mutual
theorem msgV_ends (m : Mach) (ex : Bool) (L : Nat) : ∀ (fuel c : Nat) (s : Bytes), AllBytes (c :: s) →
    s.length ≤ L → 3 * s.length + 3 ≤ fuel → Ends m ex L s.length (msgV m ex fuel (some c) s)
  | 0, c, s, _, _, hf => by omega
  | fuel + 1, c, s, hs, hL, hf => by
    have num : ∀ (w : Nat) (g : Nat → Event Nat), w ≤ 8 →
        Ends m ex L s.length ((getNumber m false w s).bind fun p => .ok ([g p.1], p.2)) :=
      fun w g hw => getNumber_ends' m ex L _ w hw hs.tail fun k r hr _ _ => by simpa [Ends] using hr
    have arr : ∀ w, w ≤ 4 → Ends m ex L s.length ((getNumber m false w s).bind fun p => msgArr m ex fuel p.1 p.2) :=
      fun w hw => getNumber_ends32 m ex L _ w hw hs.tail fun k r hr hb hk =>
        (msgArr_ends m ex L fuel k r hb (by omega) hk (by omega)).mono hr
    have obj : ∀ w, w ≤ 4 → Ends m ex L s.length ((getNumber m false w s).bind fun p => msgObj m ex fuel p.1 p.2) :=
      fun w hw => getNumber_ends32 m ex L _ w hw hs.tail fun k r hr hb hk =>
        (msgObj_ends m ex L fuel k r hb (by omega) hk (by omega)).mono hr
    have one : ∀ evs : List (Event Nat), Ends m ex L s.length (.ok (evs, s)) := fun _ => Nat.le_refl _
    rw [msgV]
    refine Ends.ite (fun _ => one _) fun _ => ?_
    refine Ends.ite (fun _ => msgObj_ends m ex L fuel _ s hs.tail hL (by omega) (by omega)) fun _ => ?_
    refine Ends.ite (fun _ => msgArr_ends m ex L fuel _ s hs.tail hL (by omega) (by omega)) fun _ => ?_
    refine Ends.ite (fun _ => msgEnds_after_string m ex hs hL fun a r hr _ => by simpa [Ends] using hr) fun _ => ?_
    refine Ends.ite (fun _ => one _) fun _ => ?_
    refine Ends.ite (fun _ => one _) fun _ => ?_
    refine Ends.ite (fun _ => one _) fun _ => ?_
    refine Ends.ite (fun _ => num 4 (fun n => .float (readSingle n)) (by omega)) fun _ => ?_
    refine Ends.ite (fun _ => num 8 _ (by omega)) fun _ => ?_
    refine Ends.ite (fun _ => num 1 _ (by omega)) fun _ => ?_
    refine Ends.ite (fun _ => num 2 _ (by omega)) fun _ => ?_
    refine Ends.ite (fun _ => num 4 _ (by omega)) fun _ => ?_
    refine Ends.ite (fun _ => num 8 _ (by omega)) fun _ => ?_
    refine Ends.ite (fun _ => num 1 (fun n => .int (asSigned 1 n)) (by omega)) fun _ => ?_
    refine Ends.ite (fun _ => num 2 (fun n => .int (asSigned 2 n)) (by omega)) fun _ => ?_
    refine Ends.ite (fun _ => num 4 (fun n => .int (asSigned 4 n)) (by omega)) fun _ => ?_
    refine Ends.ite (fun _ => num 8 (fun n => .int (asSigned 8 n)) (by omega)) fun _ => ?_
    refine Ends.ite (fun _ => arr 2 (by omega)) fun _ => ?_
    refine Ends.ite (fun _ => arr 4 (by omega)) fun _ => ?_
    refine Ends.ite (fun _ => obj 2 (by omega)) fun _ => ?_
    refine Ends.ite (fun _ => obj 4 (by omega)) fun _ => ?_
    refine Ends.ite (fun _ => one _) fun _ => ?_
    simp [Ends]
theorem msgArr_ends (m : Mach) (ex : Bool) (L : Nat) : ∀ (fuel len : Nat) (s : Bytes), AllBytes s →
    s.length ≤ L → len < 2 ^ 32 → 3 * s.length + 2 ≤ fuel → Ends m ex L s.length (msgArr m ex fuel len s)
  | 0, len, s, _, _, _, hf => by omega
  | fuel + 1, len, s, hs, hL, hl, hf => by
    rw [msgArr]
    refine Ends.ite (fun h => .inl ⟨rfl, .inl ?_⟩) fun _ => ?_
    · rw [noSize]; omega
    · exact Ends.bind (msgElems_ends m ex L fuel len s hs hL (by omega)) fun a r hr => by simpa [Ends] using hr
theorem msgElems_ends (m : Mach) (ex : Bool) (L : Nat) : ∀ (fuel n : Nat) (s : Bytes), AllBytes s →
    s.length ≤ L → 3 * s.length + 1 ≤ fuel → Ends m ex L s.length (msgElems m ex fuel n s)
  | fuel, 0, s, _, _, _ => by cases fuel <;> simp [msgElems, Ends]
  | fuel, _ + 1, [], _, _, _ => by cases fuel <;> simp [msgElems, Ends]
  | 0, _ + 1, _ :: _, _, _, hf => by omega
  | fuel + 1, n + 1, c :: s, hs, hL, hf => by
    simp only [List.length_cons] at hf hL
    rw [msgElems]
    refine msgEnds_after_value m ex hs (msgV_ends m ex L fuel c s hs (by omega) (by omega)) fun a r hr hb => ?_
    refine Ends.bind (msgElems_ends m ex L fuel n r hb (by omega) (by omega)) fun a' r' h' => ?_
    simp only [Ends, List.length_cons]
    omega
theorem msgObj_ends (m : Mach) (ex : Bool) (L : Nat) : ∀ (fuel len : Nat) (s : Bytes), AllBytes s →
    s.length ≤ L → len < 2 ^ 32 → 3 * s.length + 2 ≤ fuel → Ends m ex L s.length (msgObj m ex fuel len s)
  | 0, len, s, _, _, _, hf => by omega
  | fuel + 1, len, s, hs, hL, hl, hf => by
    rw [msgObj]
    refine Ends.ite (fun h => .inl ⟨rfl, .inr ?_⟩) fun _ => ?_
    · rw [noSize]; omega
    · exact Ends.bind (msgMembers_ends m ex L fuel len s hs hL (by omega)) fun a r hr => by simpa [Ends] using hr
theorem msgMembers_ends (m : Mach) (ex : Bool) (L : Nat) : ∀ (fuel n : Nat) (s : Bytes), AllBytes s →
    s.length ≤ L → 3 * s.length + 1 ≤ fuel → Ends m ex L s.length (msgMembers m ex fuel n s)
  | fuel, 0, s, _, _, _ => by cases fuel <;> simp [msgMembers, Ends]
  | fuel, _ + 1, [], _, _, _ => by cases fuel <;> simp [msgMembers, Ends]
  | 0, _ + 1, _ :: _, _, _, hf => by omega
  | fuel + 1, n + 1, c :: s, hs, hL, hf => by
    simp only [List.length_cons] at hf hL
    rw [msgMembers]
    refine msgEnds_after_string m ex hs (by omega) fun k r0 h0 hb0 => ?_
    match r0, h0, hb0 with
    | [], _, _ => cases fuel <;> simp [msgV, Ends]
    | d :: r0, h0, hb0 =>
      simp only [List.length_cons] at h0
      refine msgEnds_after_value m ex hb0 (msgV_ends m ex L fuel d r0 hb0 (by omega) (by omega)) fun a r hr hb => ?_
      refine Ends.bind (msgMembers_ends m ex L fuel n r hb (by omega) (by omega)) fun a' r' h' => ?_
      simp only [Ends, List.length_cons]
      omega
end

/-! ## More input -/

theorem msgString_goes (m : Mach) (ex : Bool) (q : Bytes) (c : Nat) (s : Bytes) :
    Goes q (msgString m ex (some c) s) (msgString m ex (some c) (s ++ q)) := by
  have num : ∀ w, Goes q ((getNumber m false w s).bind fun p => takeString m ex p.1 p.2)
      ((getNumber m false w (s ++ q)).bind fun p => takeString m ex p.1 p.2) :=
    fun w => (getNumber_goes m w s q).bind fun a r => takeString_goes m ex a r q
  simp only [msgString]
  exact Goes.ite (takeString_goes m ex _ s q) (Goes.ite (num 1) (Goes.ite (num 2) (Goes.ite (num 4) (.inr rfl))))

mutual
theorem msgV_goes (m : Mach) (ex : Bool) (q : Bytes) : ∀ (fuel fuel' c : Nat) (s : Bytes), fuel ≤ fuel' →
    Goes q (msgV m ex fuel (some c) s) (msgV m ex fuel' (some c) (s ++ q))
  | 0, _, c, s, _ => by rw [msgV]; trivial
  | fuel + 1, 0, c, s, hf => by omega
  | fuel + 1, fuel' + 1, c, s, hf => by
    have num : ∀ (w : Nat) (g : Nat → Event Nat), Goes q ((getNumber m false w s).bind fun p => .ok ([g p.1], p.2))
        ((getNumber m false w (s ++ q)).bind fun p => .ok ([g p.1], p.2)) :=
      fun w g => (getNumber_goes m w s q).bind fun a r => rfl
    have arr : ∀ w, Goes q ((getNumber m false w s).bind fun p => msgArr m ex fuel p.1 p.2)
        ((getNumber m false w (s ++ q)).bind fun p => msgArr m ex fuel' p.1 p.2) :=
      fun w => (getNumber_goes m w s q).bind fun a r => msgArr_goes m ex q fuel fuel' a r (by omega)
    have obj : ∀ w, Goes q ((getNumber m false w s).bind fun p => msgObj m ex fuel p.1 p.2)
        ((getNumber m false w (s ++ q)).bind fun p => msgObj m ex fuel' p.1 p.2) :=
      fun w => (getNumber_goes m w s q).bind fun a r => msgObj_goes m ex q fuel fuel' a r (by omega)
    rw [msgV, msgV]
    refine Goes.ite rfl ?_
    refine Goes.ite (msgObj_goes m ex q fuel fuel' _ s (by omega)) ?_
    refine Goes.ite (msgArr_goes m ex q fuel fuel' _ s (by omega)) ?_
    refine Goes.ite ((msgString_goes m ex q c s).bind fun a r => rfl) ?_
    refine Goes.ite rfl ?_
    refine Goes.ite rfl ?_
    refine Goes.ite rfl ?_
    refine Goes.ite (num 4 fun n => .float (readSingle n)) ?_
    refine Goes.ite (num 8 _) ?_
    refine Goes.ite (num 1 _) ?_
    refine Goes.ite (num 2 _) ?_
    refine Goes.ite (num 4 _) ?_
    refine Goes.ite (num 8 _) ?_
    refine Goes.ite (num 1 fun n => .int (asSigned 1 n)) ?_
    refine Goes.ite (num 2 fun n => .int (asSigned 2 n)) ?_
    refine Goes.ite (num 4 fun n => .int (asSigned 4 n)) ?_
    refine Goes.ite (num 8 fun n => .int (asSigned 8 n)) ?_
    refine Goes.ite (arr 2) ?_
    refine Goes.ite (arr 4) ?_
    refine Goes.ite (obj 2) ?_
    refine Goes.ite (obj 4) ?_
    refine Goes.ite rfl ?_
    exact .inr rfl
theorem msgArr_goes (m : Mach) (ex : Bool) (q : Bytes) : ∀ (fuel fuel' len : Nat) (s : Bytes), fuel ≤ fuel' →
    Goes q (msgArr m ex fuel len s) (msgArr m ex fuel' len (s ++ q))
  | 0, _, len, s, _ => by rw [msgArr]; trivial
  | fuel + 1, 0, _, s, hf => by omega
  | fuel + 1, fuel' + 1, len, s, hf => by
    rw [msgArr, msgArr]
    exact Goes.ite rfl ((msgElems_goes m ex q fuel fuel' len s (by omega)).bind fun a r => rfl)
theorem msgElems_goes (m : Mach) (ex : Bool) (q : Bytes) : ∀ (fuel fuel' n : Nat) (s : Bytes), fuel ≤ fuel' →
    Goes q (msgElems m ex fuel n s) (msgElems m ex fuel' n (s ++ q))
  | fuel, fuel', 0, s, _ => by cases fuel <;> cases fuel' <;> simp [msgElems, Goes]
  | fuel, _, _ + 1, [], _ => by cases fuel <;> (rw [msgElems]; exact .inl rfl)
  | 0, _, _ + 1, _ :: _, _ => by rw [msgElems]; trivial
  | fuel + 1, 0, _ + 1, _ :: _, hf => by omega
  | fuel + 1, fuel' + 1, n + 1, c :: s, hf => by
    rw [List.cons_append, msgElems, msgElems]
    refine Goes.bind (msgV_goes m ex q fuel fuel' c s (by omega)) fun a r => ?_
    exact Goes.bind (msgElems_goes m ex q fuel fuel' n r (by omega)) fun a' r' => rfl
theorem msgObj_goes (m : Mach) (ex : Bool) (q : Bytes) : ∀ (fuel fuel' len : Nat) (s : Bytes), fuel ≤ fuel' →
    Goes q (msgObj m ex fuel len s) (msgObj m ex fuel' len (s ++ q))
  | 0, _, len, s, _ => by rw [msgObj]; trivial
  | fuel + 1, 0, _, s, hf => by omega
  | fuel + 1, fuel' + 1, len, s, hf => by
    rw [msgObj, msgObj]
    exact Goes.ite rfl ((msgMembers_goes m ex q fuel fuel' len s (by omega)).bind fun a r => rfl)
theorem msgMembers_goes (m : Mach) (ex : Bool) (q : Bytes) : ∀ (fuel fuel' n : Nat) (s : Bytes), fuel ≤ fuel' →
    Goes q (msgMembers m ex fuel n s) (msgMembers m ex fuel' n (s ++ q))
  | fuel, fuel', 0, s, _ => by cases fuel <;> cases fuel' <;> simp [msgMembers, Goes]
  | fuel, _, _ + 1, [], _ => by cases fuel <;> (rw [msgMembers]; exact .inl rfl)
  | 0, _, _ + 1, _ :: _, _ => by rw [msgMembers]; trivial
  | fuel + 1, 0, _ + 1, _ :: _, hf => by omega
  | fuel + 1, fuel' + 1, n + 1, c :: s, hf => by
    rw [List.cons_append, msgMembers, msgMembers]
    refine Goes.bind (msgString_goes m ex q c s) fun k r0 => ?_
    match r0 with
    | [] => cases fuel <;> (rw [List.head?_nil, msgV]; exact Or.inl rfl)
    | d :: r0 =>
      refine Goes.bind (msgV_goes m ex q fuel fuel' d r0 (by omega)) fun a r => ?_
      exact Goes.bind (msgMembers_goes m ex q fuel fuel' n r (by omega)) fun a' r' => rfl
end

end Verif.Json
