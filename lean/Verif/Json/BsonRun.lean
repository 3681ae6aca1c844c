import Verif.Json.BsonLemmas

/-!
# Every BSON document is read; the BSON reader always comes to an end; what it does at the end of the input
-/

namespace Verif.Json
open Spec Spec.Bson

/-! ## Every document is read -/

theorem bsonCstr_read (m : Mach) : ∀ (k : Bytes) (n : Nat) (r : Bytes), 0 ∉ k → n + k.length ≤ m.maxStr →
    bsonCstr m n (k ++ 0 :: r) = .ok (k, r)
  | [], n, r, _, _ => by rw [List.nil_append, bsonCstr, if_pos rfl]
  | c :: k, n, r, h, hn => by
    simp only [List.mem_cons, not_or] at h
    simp only [List.length_cons] at hn
    rw [List.cons_append, bsonCstr, if_neg fun e => h.1 e.symm, if_pos (by omega),
      bsonCstr_read m k (n + 1) r h.2 (by omega)]
    rfl

theorem bsonString_read (m : Mach) (ex : Bool) {t : Bytes} {len : Int} (hl : len = (t.length + 1 : Nat))
    (hm : t.length ≤ m.maxStr) (e : Nat) (r : Bytes) : bsonString m ex len (t ++ e :: r) = .ok (t, r) := by
  rw [bsonString, if_neg (by omega), takeString_append m ex (t := t) (len := (len - 1).toNat) (by omega) (by omega)]
  rfl

mutual
theorem bsonDoc_read (m : Mach) (ex : Bool) : ∀ {t : Bytes} {ms : List (Bytes × Json Nat)} (isArr : Bool) (fuel : Nat)
    (r : Bytes), Doc true t ms → t.length ≤ m.maxStr → t.length ≤ fuel →
    bsonDoc m ex fuel isArr (t ++ r) = .ok (events (bsonJson isArr ms), r)
  | _, _, isArr, fuel, r, @Doc.mk _ sz t n ms hn _ ht, hm, hf => by
    simp only [List.length_append, List.length_cons, List.length_nil] at hm hf
    obtain ⟨fuel, rfl⟩ : ∃ f, fuel = f + 1 := ⟨fuel - 1, by omega⟩
    rw [List.append_assoc, bsonDoc, littleNumber_append m hn.1, Rd.ok_bind, List.append_assoc, List.singleton_append,
      bsonElems_read m ex isArr fuel r ht (by omega) (by have := hn.1; omega), Rd.ok_bind]
    cases isArr <;> simp [bsonJson, bsonEvents, events]
theorem bsonElems_read (m : Mach) (ex : Bool) : ∀ {t : Bytes} {ms : List (Bytes × Json Nat)} (isArr : Bool) (fuel : Nat)
    (r : Bytes), Elems true t ms → t.length ≤ m.maxStr → t.length + 1 ≤ fuel →
    bsonElems m ex fuel isArr (t ++ 0 :: r) = .ok (bsonEvents isArr ms, r)
  | _, _, isArr, fuel, r, .nil, hm, hf => by
    simp only [List.length_nil] at hf
    obtain ⟨fuel, rfl⟩ : ∃ f, fuel = f + 1 := ⟨fuel - 1, by omega⟩
    rw [List.nil_append, bsonElems, if_pos rfl]
    cases isArr <;> simp [bsonEvents, eventsL, eventsM]
  | _, _, isArr, fuel, r, @Elems.cons _ c k t ts v ms hk hkb _ ht hts, hm, hf => by
    simp only [List.length_append, List.length_cons] at hm hf
    obtain ⟨fuel, rfl⟩ : ∃ f, fuel = f + 1 := ⟨fuel - 1, by omega⟩
    have hc : c ≠ 0 := by cases ht <;> decide
    have e : c :: (k ++ 0 :: (t ++ ts)) ++ 0 :: r = c :: (k ++ 0 :: (t ++ (ts ++ 0 :: r))) := by simp
    rw [e, bsonElems, if_neg hc, bsonCstr_read m k 0 _ hk (by omega), Rd.ok_bind,
      bsonValue_read m ex fuel _ ht (by omega) (by omega), Rd.ok_bind,
      bsonElems_read m ex isArr fuel r hts (by omega) (by omega), Rd.ok_bind]
    cases isArr <;> simp [bsonEvents, eventsL, eventsM]
theorem bsonValue_read (m : Mach) (ex : Bool) : ∀ {c : Nat} {t : Bytes} {v : Json Nat} (fuel : Nat)
    (r : Bytes), Elem true c t v → t.length ≤ m.maxStr → t.length + 1 ≤ fuel →
    bsonValue m ex fuel c (t ++ r) = .ok (events v, r)
  | _, _, _, 0, _, _, _, hf => by omega
  | _, _, _, fuel + 1, r, .double hl hb, hm, hf => by
    rw [bsonValue]; branch; rw [littleNumber_append m hl]; rfl
  | _, _, _, fuel + 1, r, @Elem.str _ sz s e hn hb he _, hm, hf => by
    simp only [List.length_append, List.length_cons, List.length_nil] at hm
    rw [bsonValue]; branch
    rw [List.append_assoc, littleNumber_append m hn.1, Rd.ok_bind, isInt_only (k := 2) (by decide) (by decide) hn,
      List.append_assoc, List.singleton_append, bsonString_read m ex rfl (by omega)]
    rfl
  | _, _, _, fuel + 1, r, .obj hd, hm, hf => by
    rw [bsonValue]; branch; exact bsonDoc_read m ex false fuel r hd hm (by omega)
  | _, _, _, fuel + 1, r, .arr hd hv _, hm, hf => by
    rw [bsonValue]; branch; rw [bsonDoc_read m ex true fuel r hd hm (by omega), hv]; rfl
  | _, _, _, fuel + 1, r, .bool hb _, hm, hf => by
    rw [bsonValue]; branch; simp [events]
  | _, _, _, fuel + 1, r, .null, hm, hf => by
    rw [bsonValue]; branch; rfl
  | _, _, _, fuel + 1, r, .int32 h, hm, hf => by
    rw [bsonValue]; branch
    rw [littleNumber_append m h.1, Rd.ok_bind, isInt_only (k := 2) (by decide) (by decide) h]; rfl
  | _, _, _, fuel + 1, r, .int64 h, hm, hf => by
    rw [bsonValue]; branch
    rw [littleNumber_append m h.1, Rd.ok_bind, isInt_only (k := 3) (by decide) (by decide) h]; rfl
end

/-! ## How the reader ends -/

/-- the ways the reader can end, with at most `n` bytes left -/
def BsonEnds (m : Mach) (ex : Bool) (L : Nat) (n : Nat) : Rd (α × Bytes) → Prop
  | .ok (_, r) => r.length ≤ n
  | .fail id => id = 0 ∨ id = 110 ∨ id = 112 ∨ id = 114
  | .threw k => k = "std::length_error" ∧ (m.maxStr < L ∨ (ex = false ∧ m.maxStr < 2 ^ 31))
  | .running => False

theorem BsonEnds.bind {m : Mach} {ex : Bool} {L n n' : Nat} {x : Rd (α × Bytes)} {f : α × Bytes → Rd (β × Bytes)}
    (h : BsonEnds m ex L n x) (hf : ∀ a r, r.length ≤ n → BsonEnds m ex L n' (f (a, r))) :
    BsonEnds m ex L n' (x.bind f) := by
  match x, h with
  | .ok (a, r), h => exact hf a r h
  | .fail id, h => exact h
  | .threw k, h => exact h

theorem BsonEnds.ite {m : Mach} {ex : Bool} {L n : Nat} {p : Prop} [Decidable p] {x y : Rd (α × Bytes)}
    (hx : p → BsonEnds m ex L n x) (hy : ¬ p → BsonEnds m ex L n y) : BsonEnds m ex L n (if p then x else y) := by
  by_cases h : p
  · rw [if_pos h]; exact hx h
  · rw [if_neg h]; exact hy h

theorem BsonEnds.mono {m : Mach} {ex : Bool} {L n n' : Nat} (hn : n ≤ n') : ∀ {x : Rd (α × Bytes)},
    BsonEnds m ex L n x → BsonEnds m ex L n' x
  | .ok (_, r), h => by simp only [BsonEnds] at h ⊢; omega
  | .fail _, h => h
  | .threw _, h => h

theorem littleNumber_ends (m : Mach) (ex : Bool) (L w : Nat) (s : Bytes) :
    BsonEnds m ex L s.length (getNumber m true w s) := by
  rcases littleNumber_cases m w s with ⟨bs, r, rfl, _, e⟩ | ⟨_, e⟩
  · rw [e]; simp [BsonEnds]
  · rw [e]; simp [BsonEnds]

theorem bsonCstr_ends (m : Mach) (ex : Bool) (L : Nat) : ∀ (n : Nat) (s : Bytes), n + s.length ≤ L →
    BsonEnds m ex L (s.length - 1) (bsonCstr m n s)
  | _, [], _ => by simp [bsonCstr, BsonEnds]
  | n, c :: s, h => by
    simp only [List.length_cons] at h
    rw [bsonCstr]
    refine BsonEnds.ite (fun _ => by simp [BsonEnds]) fun _ => BsonEnds.ite (fun _ => ?_) fun hn => ?_
    · refine BsonEnds.bind (bsonCstr_ends m ex L (n + 1) s (by omega)) fun a r hr => ?_
      simp only [BsonEnds, List.length_cons]
      omega
    · exact ⟨rfl, .inl (by omega)⟩

theorem asSigned_four_lt {n : Nat} : (asSigned 4 n - 1).toNat < 2 ^ 31 ∨ 2 ^ 32 ≤ n := by
  rw [asSigned]
  by_cases h : n < 2 ^ (8 * 4 - 1)
  · rw [if_pos h]; left; omega
  · rw [if_neg h]; omega

theorem bsonString_ends (m : Mach) (ex : Bool) {L : Nat} {len : Int} {s : Bytes} (hl : (len - 1).toNat < 2 ^ 31)
    (hL : s.length ≤ L) : BsonEnds m ex L s.length (bsonString m ex len s) := by
  rw [bsonString]
  refine BsonEnds.ite (fun _ => by simp [BsonEnds]) fun _ => ?_
  refine BsonEnds.bind (n := s.length) ?_ fun a r hr => ?_
  · rw [takeString]
    refine BsonEnds.ite (fun h => BsonEnds.ite (fun _ => by simp [BsonEnds]) fun h' => ?_) fun h =>
      BsonEnds.ite (fun _ => by simp [BsonEnds]) fun hx => BsonEnds.ite (fun _ => by simp [BsonEnds]) fun h' => ?_
    · exact ⟨rfl, .inl (by omega)⟩
    · exact ⟨rfl, .inr ⟨by simpa using hx, by omega⟩⟩
  · match r with
    | [] => simp [BsonEnds]
    | _ :: r => simp only [BsonEnds, List.length_cons] at hr ⊢; omega

mutual
theorem bsonDoc_ends (m : Mach) (ex : Bool) (L : Nat) : ∀ (fuel : Nat) (isArr : Bool) (s : Bytes), AllBytes s →
    s.length ≤ L → s.length + 1 ≤ fuel → BsonEnds m ex L s.length (bsonDoc m ex fuel isArr s)
  | 0, _, _, _, _, hf => by omega
  | fuel + 1, isArr, s, hb, hL, hf => by
    rw [bsonDoc]
    rcases littleNumber_cases m 4 s with ⟨bs, r, rfl, hl, e⟩ | ⟨_, e⟩
    · rw [e, Rd.ok_bind]
      simp only [List.length_append] at *
      refine BsonEnds.bind (bsonElems_ends m ex L fuel isArr r hb.right (by omega) (by omega)) fun a r' hr => ?_
      cases isArr <;> (simp only [BsonEnds, Bool.false_eq_true, if_true, if_false]; omega)
    · rw [e]; simp [BsonEnds]
theorem bsonElems_ends (m : Mach) (ex : Bool) (L : Nat) : ∀ (fuel : Nat) (isArr : Bool) (s : Bytes), AllBytes s →
    s.length ≤ L → s.length + 1 ≤ fuel → BsonEnds m ex L s.length (bsonElems m ex fuel isArr s)
  | fuel, _, [], _, _, _ => by cases fuel <;> simp [bsonElems, BsonEnds]
  | 0, _, _ :: _, _, _, hf => by omega
  | fuel + 1, isArr, c :: s, hb, hL, hf => by
    simp only [List.length_cons] at hL hf
    rw [bsonElems]
    refine BsonEnds.ite (fun _ => by simp [BsonEnds]) fun _ => ?_
    have h0 := bsonCstr_ends m ex L 0 s (by omega)
    cases e : bsonCstr m 0 s with
    | running => rw [e] at h0; exact h0.elim
    | fail id => rw [e] at h0; exact h0
    | threw k => rw [e] at h0; exact h0
    | ok p =>
      obtain ⟨k, r0⟩ := p
      obtain ⟨rfl, _⟩ := bsonCstr_sound m _ _ _ _ e
      simp only [List.length_append, List.length_cons] at *
      rw [Rd.ok_bind]
      have hb0 : AllBytes r0 := hb.tail.right.tail
      have h1 := bsonValue_ends m ex L fuel c r0 hb0 (by omega) (by omega)
      cases e1 : bsonValue m ex fuel c r0 with
      | running => rw [e1] at h1; exact h1.elim
      | fail id => rw [e1] at h1; exact h1
      | threw k => rw [e1] at h1; exact h1
      | ok p =>
        obtain ⟨evs, r1⟩ := p
        rw [e1] at h1
        simp only [BsonEnds] at h1
        rw [Rd.ok_bind]
        have hb1 : AllBytes r1 := by
          by_cases hr : r1 = []
          · subst hr; exact nofun
          · obtain ⟨t, v, e', _⟩ := bsonValue_sound m ex fuel c r0 r1 evs hb0 hr e1
            exact (show AllBytes (t ++ r1) by rw [← e']; exact hb0).right
        refine BsonEnds.bind (bsonElems_ends m ex L fuel isArr r1 hb1 (by omega) (by omega)) fun a r' hr => ?_
        cases isArr <;> (simp only [BsonEnds, Bool.false_eq_true, if_true, if_false]; omega)
theorem bsonValue_ends (m : Mach) (ex : Bool) (L : Nat) : ∀ (fuel c : Nat) (s : Bytes), AllBytes s →
    s.length ≤ L → s.length + 2 ≤ fuel → BsonEnds m ex L s.length (bsonValue m ex fuel c s)
  | 0, _, _, _, _, hf => by omega
  | fuel + 1, c, s, hb, hL, hf => by
    have num : ∀ (w : Nat) (g : Nat → Event Nat),
        BsonEnds m ex L s.length ((getNumber m true w s).bind fun p => .ok ([g p.1], p.2)) :=
      fun w g => (littleNumber_ends m ex L w s).bind fun a r hr => by simpa [BsonEnds] using hr
    rw [bsonValue]
    refine BsonEnds.ite (fun _ => num 8 _) fun _ => ?_
    refine BsonEnds.ite (fun _ => ?_) fun _ => ?_
    · rcases littleNumber_cases m 4 s with ⟨bs, r, rfl, hl, e⟩ | ⟨_, e⟩
      · rw [e, Rd.ok_bind]
        have hlt := little_lt hb.left
        rw [hl] at hlt
        simp only [List.length_append] at *
        refine BsonEnds.bind (bsonString_ends m ex (L := L) ?_ (by omega)) fun a r' hr => ?_
        · rcases asSigned_four_lt (n := little bs) with h | h
          · exact h
          · omega
        · simp only [BsonEnds]; omega
      · rw [e]; simp [BsonEnds]
    refine BsonEnds.ite (fun _ => bsonDoc_ends m ex L fuel false s hb hL (by omega)) fun _ => ?_
    refine BsonEnds.ite (fun _ => bsonDoc_ends m ex L fuel true s hb hL (by omega)) fun _ => ?_
    refine BsonEnds.ite (fun _ => by simp [BsonEnds]) fun _ => ?_
    refine BsonEnds.ite (fun _ => by simp [BsonEnds]) fun _ => ?_
    refine BsonEnds.ite (fun _ => num 4 fun n => .int (asSigned 4 n)) fun _ => ?_
    refine BsonEnds.ite (fun _ => num 8 fun n => .int (asSigned 8 n)) fun _ => ?_
    simp [BsonEnds]
end

/-! ## More input -/

/-- what the reader does if the input goes on with `q`: the same, unless it met the end of the input -/
def BsonGoes (q : Bytes) (x y : Rd (α × Bytes)) : Prop :=
  match x with
  | .ok (a, r) => y = .ok (a, r ++ q)
  | .fail id => (id = 110 ∨ id = 0) ∨ y = .fail id
  | .threw k => y = .threw k
  | .running => True

theorem Goes.bson {q : Bytes} : ∀ {x y : Rd (α × Bytes)}, Goes q x y → BsonGoes q x y
  | .ok (_, _), _, h => h
  | .fail _, _, h => h.elim (fun h => .inl (.inl h)) .inr
  | .threw _, _, h => h
  | .running, _, _ => trivial

theorem BsonGoes.bind {q : Bytes} {x y : Rd (α × Bytes)} {f g : α × Bytes → Rd (β × Bytes)} (h : BsonGoes q x y)
    (hf : ∀ a r, BsonGoes q (f (a, r)) (g (a, r ++ q))) : BsonGoes q (x.bind f) (y.bind g) := by
  match x, h with
  | .ok (a, r), h => simp only [BsonGoes] at h; rw [h]; exact hf a r
  | .fail id, h =>
    rcases h with h | h
    · exact .inl h
    · rw [h]; exact .inr rfl
  | .threw k, h => simp only [BsonGoes] at h; rw [h]; rfl
  | .running, _ => trivial

theorem BsonGoes.ite {q : Bytes} {p : Prop} [Decidable p] {x y x' y' : Rd (α × Bytes)} (hx : BsonGoes q x x')
    (hy : BsonGoes q y y') : BsonGoes q (if p then x else y) (if p then x' else y') := by
  by_cases h : p
  · rw [if_pos h, if_pos h]; exact hx
  · rw [if_neg h, if_neg h]; exact hy

theorem littleNumber_goes (m : Mach) (w : Nat) (s q : Bytes) :
    BsonGoes q (getNumber m true w s) (getNumber m true w (s ++ q)) := by
  rcases littleNumber_cases m w s with ⟨bs, r, rfl, hl, e⟩ | ⟨_, e⟩
  · rw [e, List.append_assoc, littleNumber_append m hl]; rfl
  · rw [e]; exact .inl (.inl rfl)

theorem bsonCstr_goes (m : Mach) (q : Bytes) : ∀ (n : Nat) (s : Bytes), BsonGoes q (bsonCstr m n s) (bsonCstr m n (s ++ q))
  | _, [] => .inl (.inl rfl)
  | n, c :: s => by
    rw [List.cons_append, bsonCstr, bsonCstr]
    exact BsonGoes.ite rfl (BsonGoes.ite ((bsonCstr_goes m q (n + 1) s).bind fun a r => rfl) (by simp [BsonGoes]))

theorem bsonString_goes (m : Mach) (ex : Bool) (len : Int) (s q : Bytes) :
    BsonGoes q (bsonString m ex len s) (bsonString m ex len (s ++ q)) := by
  rw [bsonString, bsonString]
  refine BsonGoes.ite (.inr rfl) ((takeString_goes m ex _ s q).bson.bind fun a r => ?_)
  match r with
  | [] => exact .inl (.inr rfl)
  | _ :: r => rfl

/-- the same of a value; but the value that ends with the input may be a truth value that is missing -/
def BsonGoesV (q : Bytes) (x y : Rd (α × Bytes)) : Prop :=
  BsonGoes q x y ∨ ∃ a, x = .ok (a, [])

mutual
theorem bsonDoc_goes (m : Mach) (ex : Bool) (q : Bytes) : ∀ (fuel fuel' : Nat) (isArr : Bool) (s : Bytes), fuel ≤ fuel' →
    BsonGoes q (bsonDoc m ex fuel isArr s) (bsonDoc m ex fuel' isArr (s ++ q))
  | 0, _, _, _, _ => by rw [bsonDoc]; trivial
  | fuel + 1, 0, _, _, hf => by omega
  | fuel + 1, fuel' + 1, isArr, s, hf => by
    rw [bsonDoc, bsonDoc]
    refine (littleNumber_goes m 4 s q).bind fun _ r => ?_
    refine (bsonElems_goes m ex q fuel fuel' isArr r (by omega)).bind fun _ r' => ?_
    exact BsonGoes.ite rfl rfl
theorem bsonElems_goes (m : Mach) (ex : Bool) (q : Bytes) : ∀ (fuel fuel' : Nat) (isArr : Bool) (s : Bytes), fuel ≤ fuel' →
    BsonGoes q (bsonElems m ex fuel isArr s) (bsonElems m ex fuel' isArr (s ++ q))
  | fuel, _, _, [], _ => by cases fuel <;> (rw [bsonElems]; exact .inl (.inl rfl))
  | 0, _, _, _ :: _, _ => by rw [bsonElems]; trivial
  | fuel + 1, 0, _, _ :: _, hf => by omega
  | fuel + 1, fuel' + 1, isArr, c :: s, hf => by
    rw [List.cons_append, bsonElems, bsonElems]
    refine BsonGoes.ite rfl ?_
    refine (bsonCstr_goes m q 0 s).bind fun k r => ?_
    rcases bsonValue_goes m ex q fuel fuel' c r (by omega) with h | ⟨a, h⟩
    · refine h.bind fun a r' => ?_
      refine (bsonElems_goes m ex q fuel fuel' isArr r' (by omega)).bind fun _ r'' => ?_
      exact BsonGoes.ite rfl rfl
    · rw [h, Rd.ok_bind]
      have : bsonElems m ex fuel isArr [] = .fail 110 := by cases fuel <;> rw [bsonElems]
      rw [this]
      exact .inl (.inl rfl)
theorem bsonValue_goes (m : Mach) (ex : Bool) (q : Bytes) : ∀ (fuel fuel' c : Nat) (s : Bytes), fuel ≤ fuel' →
    BsonGoesV q (bsonValue m ex fuel c s) (bsonValue m ex fuel' c (s ++ q))
  | 0, _, _, _, _ => by rw [bsonValue]; exact .inl trivial
  | fuel + 1, 0, _, _, hf => by omega
  | fuel + 1, fuel' + 1, c, s, hf => by
    by_cases hc : c = 0x08 ∧ s = []
    · obtain ⟨rfl, rfl⟩ := hc
      exact .inr ⟨_, rfl⟩
    · left
      have num : ∀ (w : Nat) (g : Nat → Event Nat), BsonGoes q ((getNumber m true w s).bind fun p => .ok ([g p.1], p.2))
          ((getNumber m true w (s ++ q)).bind fun p => .ok ([g p.1], p.2)) :=
        fun w g => (littleNumber_goes m w s q).bind fun a r => rfl
      rw [bsonValue, bsonValue]
      refine BsonGoes.ite (num 8 _) ?_
      refine BsonGoes.ite ((littleNumber_goes m 4 s q).bind fun a r => (bsonString_goes m ex _ r q).bind fun _ _ => rfl) ?_
      refine BsonGoes.ite (bsonDoc_goes m ex q fuel fuel' false s (by omega)) ?_
      refine BsonGoes.ite (bsonDoc_goes m ex q fuel fuel' true s (by omega)) ?_
      by_cases h8 : c = 0x08
      · rw [if_pos h8, if_pos h8]
        match s, hc with
        | [], hc => exact absurd ⟨h8, rfl⟩ hc
        | b :: s, _ => rfl
      rw [if_neg h8, if_neg h8]
      refine BsonGoes.ite rfl ?_
      refine BsonGoes.ite (num 4 fun n => .int (asSigned 4 n)) ?_
      refine BsonGoes.ite (num 8 fun n => .int (asSigned 8 n)) ?_
      exact .inr rfl
end

end Verif.Json
