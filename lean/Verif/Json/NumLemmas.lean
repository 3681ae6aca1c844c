import Verif.Json.LexLemmas

/-!
# Lemmas about the lexer: numbers
-/

namespace Verif.Json
open Spec

theorem isDigit_iff {c : Nat} : isDigit c = true ↔ Digit c := by simp [isDigit, Digit]

theorem isDigit_false {c : Nat} : isDigit c = false ↔ ¬ Digit c := by
  rw [← isDigit_iff]; cases isDigit c <;> simp

/-- the next byte, if any, is not as described -/
def Stop (P : Nat → Prop) (r : Bytes) : Prop := ∀ c s, r = c :: s → ¬ P c

theorem Stop.nil {P : Nat → Prop} : Stop P [] := fun _ _ h => by cases h

theorem Stop.cons {P : Nat → Prop} {c : Nat} {s : Bytes} : Stop P (c :: s) ↔ ¬ P c :=
  ⟨fun h => h c s rfl, fun h c' s' e => by cases e; exact h⟩

def AllDigits (ds : Bytes) : Prop := ∀ c ∈ ds, Digit c

theorem AllDigits.nil : AllDigits [] := fun _ h => by cases h

theorem AllDigits.cons {c : Nat} {ds : Bytes} : AllDigits (c :: ds) ↔ Digit c ∧ AllDigits ds := by
  simp [AllDigits]

def IsE (c : Nat) : Prop := c = 0x65 ∨ c = 0x45

theorem Digit.not_e {c : Nat} (h : Digit c) : ¬ IsE c := by unfold Digit at h; unfold IsE; omega

/-! ## The states -/

theorem numAny2_iff {ty : NumType} {s buf b r : Bytes} :
    numAny2 buf s = some (ty, b, r) ↔
      ∃ ds, AllDigits ds ∧ s = ds ++ r ∧ b = buf ++ ds ∧ ty = .float ∧ Stop Digit r := by
  induction s generalizing buf with
  | nil =>
    simp only [numAny2, Option.some.injEq, Prod.mk.injEq]
    constructor
    · rintro ⟨rfl, rfl, rfl⟩
      exact ⟨[], .nil, rfl, by simp, rfl, .nil⟩
    · rintro ⟨ds, _, h2, h3, rfl, _⟩
      obtain ⟨rfl, rfl⟩ := List.append_eq_nil_iff.1 h2.symm
      simp [h3]
  | cons c s ih =>
    simp only [numAny2]
    by_cases hc : Digit c
    · rw [if_pos (isDigit_iff.2 hc), ih]
      constructor
      · rintro ⟨ds, h1, rfl, rfl, rfl, h5⟩
        exact ⟨c :: ds, AllDigits.cons.2 ⟨hc, h1⟩, rfl, by simp, rfl, h5⟩
      · rintro ⟨ds, h1, h2, h3, rfl, h5⟩
        rcases ds with _ | ⟨d, ds⟩
        · rw [List.nil_append] at h2
          rw [← h2] at h5
          exact absurd hc (Stop.cons.1 h5)
        · simp only [List.cons_append, List.cons.injEq] at h2
          obtain ⟨rfl, rfl⟩ := h2
          exact ⟨ds, (AllDigits.cons.1 h1).2, rfl, by simp [h3], rfl, h5⟩
    · rw [if_neg (by rw [isDigit_iff]; exact hc)]
      simp only [Option.some.injEq, Prod.mk.injEq]
      constructor
      · rintro ⟨rfl, rfl, rfl⟩
        exact ⟨[], .nil, rfl, by simp, rfl, Stop.cons.2 hc⟩
      · rintro ⟨ds, h1, h2, h3, rfl, h5⟩
        rcases ds with _ | ⟨d, ds⟩
        · simp [h3, h2]
        · simp only [List.cons_append, List.cons.injEq] at h2
          obtain ⟨rfl, rfl⟩ := h2
          exact absurd (AllDigits.cons.1 h1).1 hc

theorem numSign_iff {ty : NumType} {s buf b r : Bytes} :
    numSign buf s = some (ty, b, r) ↔
      ∃ ds, Digits ds ∧ s = ds ++ r ∧ b = buf ++ ds ∧ ty = .float ∧ Stop Digit r := by
  rcases s with _ | ⟨c, s⟩
  · simp only [numSign]
    constructor
    · intro h; cases h
    · rintro ⟨ds, h1, h2, _⟩
      exact absurd (List.append_eq_nil_iff.1 h2.symm).1 h1.1
  · simp only [numSign]
    constructor
    · intro h
      split at h
      · next hc =>
        obtain ⟨ds, h1, rfl, rfl, rfl, h5⟩ := numAny2_iff.1 h
        exact ⟨c :: ds, ⟨by simp, AllDigits.cons.2 ⟨isDigit_iff.1 hc, h1⟩⟩, rfl, by simp, rfl, h5⟩
      · cases h
    · rintro ⟨ds, h1, h2, rfl, rfl, h5⟩
      rcases ds with _ | ⟨d, ds⟩
      · exact absurd rfl h1.1
      · simp only [List.cons_append, List.cons.injEq] at h2
        obtain ⟨rfl, rfl⟩ := h2
        have := AllDigits.cons.1 h1.2
        rw [if_pos (isDigit_iff.2 this.1)]
        exact numAny2_iff.2 ⟨ds, this.2, rfl, by simp, rfl, h5⟩

theorem numExponent_iff {ty : NumType} {s buf b r : Bytes} :
    numExponent buf s = some (ty, b, r) ↔
      ∃ sg ds, (sg = [] ∨ sg = [0x2B] ∨ sg = [0x2D]) ∧ Digits ds ∧ s = sg ++ ds ++ r ∧
        b = buf ++ sg ++ ds ∧ ty = .float ∧ Stop Digit r := by
  rcases s with _ | ⟨c, s⟩
  · simp only [numExponent]
    constructor
    · intro h; cases h
    · rintro ⟨sg, ds, _, h1, h2, _⟩
      exact absurd (List.append_eq_nil_iff.1 (List.append_eq_nil_iff.1 h2.symm).1).2 h1.1
  · simp only [numExponent]
    constructor
    · intro h
      split at h
      · next hc =>
        obtain ⟨ds, h1, rfl, rfl, rfl, h5⟩ := numSign_iff.1 h
        exact ⟨[c], ds, by rcases hc with rfl | rfl <;> simp, h1, by simp, by simp, rfl, h5⟩
      · split at h
        · next hc =>
          obtain ⟨ds, h1, rfl, rfl, rfl, h5⟩ := numAny2_iff.1 h
          exact ⟨[], c :: ds, .inl rfl, ⟨by simp, AllDigits.cons.2 ⟨isDigit_iff.1 hc, h1⟩⟩, rfl,
            by simp, rfl, h5⟩
        · cases h
    · rintro ⟨sg, ds, h0, h1, h2, rfl, rfl, h5⟩
      rcases h0 with rfl | h0
      · rcases ds with _ | ⟨d, ds⟩
        · exact absurd rfl h1.1
        · simp only [List.nil_append, List.cons_append, List.cons.injEq] at h2
          obtain ⟨rfl, rfl⟩ := h2
          have := AllDigits.cons.1 h1.2
          have hd := this.1
          unfold Digit at hd
          rw [if_neg (by omega), if_pos (isDigit_iff.2 this.1)]
          exact numAny2_iff.2 ⟨ds, this.2, rfl, by simp, rfl, h5⟩
      · have : (c = 0x2B ∨ c = 0x2D) ∧ sg = [c] ∧ s = ds ++ r := by
          rcases h0 with rfl | rfl <;>
            (simp only [List.cons_append, List.nil_append, List.cons.injEq] at h2
             obtain ⟨rfl, rfl⟩ := h2; simp)
        obtain ⟨hc, rfl, rfl⟩ := this
        rw [if_pos hc]
        exact numSign_iff.2 ⟨ds, h1, rfl, by simp, rfl, h5⟩

/-- an exponent, or none, and what stops the number then, given what else would go on -/
def ExpStop (P : Nat → Prop) (e r : Bytes) : Prop :=
  (e = [] ∧ Stop (fun c => P c ∨ IsE c) r) ∨
  (∃ m sg ds, IsE m ∧ (sg = [] ∨ sg = [0x2B] ∨ sg = [0x2D]) ∧ Digits ds ∧ e = m :: (sg ++ ds) ∧
    Stop Digit r)

theorem ExpStop.exp {P : Nat → Prop} {e r : Bytes} (h : ExpStop P e r) : Exp e := by
  rcases h with ⟨rfl, _⟩ | ⟨m, sg, ds, h1, h2, h3, h4, _⟩
  · exact .inl rfl
  · exact .inr ⟨m, sg, ds, h1, h2, h3, h4⟩

theorem numDecimal2_iff {ty : NumType} {s buf b r : Bytes} :
    numDecimal2 buf s = some (ty, b, r) ↔
      ∃ ds e, AllDigits ds ∧ ExpStop Digit e r ∧ s = ds ++ e ++ r ∧ b = buf ++ ds ++ e ∧
        ty = .float := by
  induction s generalizing buf with
  | nil =>
    simp only [numDecimal2, Option.some.injEq, Prod.mk.injEq]
    constructor
    · rintro ⟨rfl, rfl, rfl⟩
      exact ⟨[], [], .nil, .inl ⟨rfl, .nil⟩, rfl, by simp, rfl⟩
    · rintro ⟨ds, e, _, _, h2, h3, rfl⟩
      obtain ⟨h4, rfl⟩ := List.append_eq_nil_iff.1 h2.symm
      obtain ⟨rfl, rfl⟩ := List.append_eq_nil_iff.1 h4
      simp [h3]
  | cons c s ih =>
    simp only [numDecimal2]
    by_cases hc : Digit c
    · rw [if_pos (isDigit_iff.2 hc), ih]
      constructor
      · rintro ⟨ds, e, h1, h2, rfl, rfl, rfl⟩
        exact ⟨c :: ds, e, AllDigits.cons.2 ⟨hc, h1⟩, h2, rfl, by simp, rfl⟩
      · rintro ⟨ds, e, h1, h2, h3, rfl, rfl⟩
        rcases ds with _ | ⟨d, ds⟩
        · rcases h2 with ⟨rfl, h2⟩ | ⟨m, sg, ds', hm, _, _, rfl, _⟩
          · simp only [List.nil_append] at h3
            rw [← h3] at h2
            exact absurd (.inl hc) (Stop.cons.1 h2)
          · simp only [List.nil_append, List.cons_append, List.cons.injEq] at h3
            rw [h3.1] at hc
            exact absurd hm (Digit.not_e hc)
        · simp only [List.cons_append, List.cons.injEq] at h3
          obtain ⟨rfl, rfl⟩ := h3
          exact ⟨ds, e, (AllDigits.cons.1 h1).2, h2, rfl, by simp, rfl⟩
    · rw [if_neg (by rw [isDigit_iff]; exact hc)]
      by_cases he : IsE c
      · rw [if_pos (show c = 0x65 ∨ c = 0x45 from he), numExponent_iff]
        constructor
        · rintro ⟨sg, ds, h1, h2, rfl, rfl, rfl, h3⟩
          exact ⟨[], c :: (sg ++ ds), .nil, .inr ⟨c, sg, ds, he, h1, h2, rfl, h3⟩, by simp,
            by simp, rfl⟩
        · rintro ⟨ds, e, h1, h2, h3, rfl, rfl⟩
          rcases ds with _ | ⟨d, ds⟩
          · rcases h2 with ⟨rfl, h2⟩ | ⟨m, sg, ds', hm, h4, h5, rfl, h6⟩
            · simp only [List.nil_append] at h3
              rw [← h3] at h2
              exact absurd (.inr he) (Stop.cons.1 h2)
            · simp only [List.nil_append, List.cons_append, List.cons.injEq] at h3
              obtain ⟨rfl, rfl⟩ := h3
              exact ⟨sg, ds', h4, h5, by simp, by simp, rfl, h6⟩
          · simp only [List.cons_append, List.cons.injEq] at h3
            exact absurd (h3.1 ▸ (AllDigits.cons.1 h1).1) hc
      · rw [if_neg (show ¬ (c = 0x65 ∨ c = 0x45) from he)]
        simp only [Option.some.injEq, Prod.mk.injEq]
        constructor
        · rintro ⟨rfl, rfl, rfl⟩
          exact ⟨[], [], .nil, .inl ⟨rfl, Stop.cons.2 (by rintro (h | h); exact hc h; exact he h)⟩,
            rfl, by simp, rfl⟩
        · rintro ⟨ds, e, h1, h2, h3, rfl, rfl⟩
          rcases ds with _ | ⟨d, ds⟩
          · rcases h2 with ⟨rfl, h2⟩ | ⟨m, sg, ds', hm, h4, h5, rfl, h6⟩
            · simp at h3; simp [h3]
            · simp only [List.nil_append, List.cons_append, List.cons.injEq] at h3
              exact absurd (h3.1 ▸ hm) he
          · simp only [List.cons_append, List.cons.injEq] at h3
            exact absurd (h3.1 ▸ (AllDigits.cons.1 h1).1) hc

theorem numDecimal1_iff {ty : NumType} {s buf b r : Bytes} :
    numDecimal1 buf s = some (ty, b, r) ↔
      ∃ ds e, Digits ds ∧ ExpStop Digit e r ∧ s = ds ++ e ++ r ∧ b = buf ++ ds ++ e ∧
        ty = .float := by
  rcases s with _ | ⟨c, s⟩
  · simp only [numDecimal1]
    constructor
    · intro h; cases h
    · rintro ⟨ds, e, h1, _, h2, _⟩
      exact absurd (List.append_eq_nil_iff.1 (List.append_eq_nil_iff.1 h2.symm).1).1 h1.1
  · simp only [numDecimal1]
    constructor
    · intro h
      split at h
      · next hc =>
        obtain ⟨ds, e, h1, h2, rfl, rfl, rfl⟩ := numDecimal2_iff.1 h
        exact ⟨c :: ds, e, ⟨by simp, AllDigits.cons.2 ⟨isDigit_iff.1 hc, h1⟩⟩, h2, rfl, by simp, rfl⟩
      · cases h
    · rintro ⟨ds, e, h1, h2, h3, rfl, rfl⟩
      rcases ds with _ | ⟨d, ds⟩
      · exact absurd rfl h1.1
      · simp only [List.cons_append, List.cons.injEq] at h3
        obtain ⟨rfl, rfl⟩ := h3
        have := AllDigits.cons.1 h1.2
        rw [if_pos (isDigit_iff.2 this.1)]
        exact numDecimal2_iff.2 ⟨ds, e, this.2, h2, rfl, by simp, rfl⟩

/-- a fraction and an exponent, either possibly absent, and what stops the number then -/
def TailStop (P : Nat → Prop) (f e r : Bytes) : Prop :=
  (f = [] ∧ ExpStop (fun c => P c ∨ c = 0x2E) e r) ∨
  (∃ ds, Digits ds ∧ f = 0x2E :: ds ∧ ExpStop Digit e r)

theorem TailStop.exp {P : Nat → Prop} {f e r : Bytes} (h : TailStop P f e r) : Exp e := by
  rcases h with ⟨_, h⟩ | ⟨_, _, _, h⟩ <;> exact h.exp

theorem TailStop.frac {P : Nat → Prop} {f e r : Bytes} (h : TailStop P f e r) : Frac f := by
  rcases h with ⟨h, _⟩ | ⟨ds, h, h', _⟩
  · exact .inl h
  · exact .inr ⟨ds, h, h'⟩

/-- the type of a number with this fraction and exponent -/
def tailType (ty : NumType) (f e : Bytes) : NumType := if f = [] ∧ e = [] then ty else .float

/-- the first byte of a fraction, an exponent or the rest -/
theorem TailStop.head {P : Nat → Prop} {f e r s : Bytes} {c : Nat} (h : TailStop P f e r)
    (hP : ∀ c, P c → c ≠ 0x2E ∧ ¬ IsE c) (hs : c :: s = f ++ e ++ r) : ¬ P c := by
  intro hc
  have := hP c hc
  rcases h with ⟨rfl, ⟨rfl, h⟩ | ⟨m, sg, ds, hm, _, _, rfl, _⟩⟩ | ⟨ds, _, rfl, _⟩
  · simp only [List.nil_append] at hs
    rw [← hs] at h
    exact Stop.cons.1 h (.inl (.inl hc))
  · simp only [List.nil_append, List.cons_append, List.cons.injEq] at hs
    exact this.2 (hs.1 ▸ hm)
  · simp only [List.cons_append, List.cons.injEq] at hs
    exact this.1 hs.1

theorem numTail_iff {P : Nat → Prop} {ty ty' : NumType} {s buf b r : Bytes} (c : Nat)
    (hc : ¬ P c) :
    (if c = 0x2E then numDecimal1 (buf ++ [c]) s
      else if c = 0x65 ∨ c = 0x45 then numExponent (buf ++ [c]) s
      else some (ty, buf, c :: s)) = some (ty', b, r) ↔
      ∃ f e, TailStop P f e r ∧ c :: s = f ++ e ++ r ∧ b = buf ++ f ++ e ∧
        ty' = tailType ty f e := by
  split
  · next h =>
    subst h
    rw [numDecimal1_iff]
    constructor
    · rintro ⟨ds, e, h1, h2, rfl, rfl, rfl⟩
      exact ⟨0x2E :: ds, e, .inr ⟨ds, h1, rfl, h2⟩, by simp, by simp, by simp [tailType]⟩
    · rintro ⟨f, e, h1, h2, rfl, rfl⟩
      rcases h1 with ⟨rfl, ⟨rfl, h⟩ | ⟨m, sg, ds, hm, _, _, rfl, _⟩⟩ | ⟨ds, h1, rfl, h3⟩
      · simp only [List.nil_append] at h2
        rw [← h2] at h
        exact absurd (.inl (.inr rfl)) (Stop.cons.1 h)
      · simp only [List.nil_append, List.cons_append, List.cons.injEq] at h2
        unfold IsE at hm; omega
      · simp only [List.cons_append, List.cons.injEq, true_and] at h2
        exact ⟨ds, e, h1, h3, h2, by simp, by simp [tailType]⟩
  · next hp =>
    split
    · next h =>
      have h : IsE c := h
      rw [numExponent_iff]
      constructor
      · rintro ⟨sg, ds, h1, h2, rfl, rfl, rfl, h3⟩
        exact ⟨[], c :: (sg ++ ds), .inl ⟨rfl, .inr ⟨c, sg, ds, h, h1, h2, rfl, h3⟩⟩, by simp,
          by simp, by simp [tailType]⟩
      · rintro ⟨f, e, h1, h2, rfl, rfl⟩
        rcases h1 with ⟨rfl, ⟨rfl, h1⟩ | ⟨m, sg, ds, hm, h3, h4, rfl, h5⟩⟩ | ⟨ds, h1, rfl, h3⟩
        · simp only [List.nil_append] at h2
          rw [← h2] at h1
          exact absurd (.inr h) (Stop.cons.1 h1)
        · simp only [List.nil_append, List.cons_append, List.cons.injEq] at h2
          obtain ⟨rfl, rfl⟩ := h2
          exact ⟨sg, ds, h3, h4, by simp, by simp, by simp [tailType], h5⟩
        · simp only [List.cons_append, List.cons.injEq] at h2
          exact absurd h2.1 hp
    · next h =>
      have h : ¬ IsE c := h
      simp only [Option.some.injEq, Prod.mk.injEq]
      constructor
      · rintro ⟨rfl, rfl, rfl⟩
        refine ⟨[], [], .inl ⟨rfl, .inl ⟨rfl, Stop.cons.2 ?_⟩⟩, rfl, by simp, by simp [tailType]⟩
        rintro ((h1 | h1) | h1)
        · exact hc h1
        · exact hp h1
        · exact h h1
      · rintro ⟨f, e, h1, h2, rfl, rfl⟩
        rcases h1 with ⟨rfl, ⟨rfl, h1⟩ | ⟨m, sg, ds, hm, h3, h4, rfl, h5⟩⟩ | ⟨ds, h1, rfl, h3⟩
        · simp at h2; simp [h2, tailType]
        · simp only [List.nil_append, List.cons_append, List.cons.injEq] at h2
          exact absurd (h2.1 ▸ hm) h
        · simp only [List.cons_append, List.cons.injEq] at h2
          exact absurd h2.1 hp

theorem numTail_nil {P : Nat → Prop} {ty ty' : NumType} {buf b r : Bytes} :
    some (ty, buf, ([] : Bytes)) = some (ty', b, r) ↔
      ∃ f e, TailStop P f e r ∧ [] = f ++ e ++ r ∧ b = buf ++ f ++ e ∧
        ty' = tailType ty f e := by
  simp only [Option.some.injEq, Prod.mk.injEq]
  constructor
  · rintro ⟨rfl, rfl, rfl⟩
    exact ⟨[], [], .inl ⟨rfl, .inl ⟨rfl, .nil⟩⟩, rfl, by simp, by simp [tailType]⟩
  · rintro ⟨f, e, h1, h2, rfl, rfl⟩
    obtain ⟨h3, rfl⟩ := List.append_eq_nil_iff.1 h2.symm
    obtain ⟨rfl, rfl⟩ := List.append_eq_nil_iff.1 h3
    simp [tailType]

theorem numZero_iff {ty ty' : NumType} {s buf b r : Bytes} :
    numZero ty buf s = some (ty', b, r) ↔
      ∃ f e, TailStop (fun _ => False) f e r ∧ s = f ++ e ++ r ∧ b = buf ++ f ++ e ∧
        ty' = tailType ty f e := by
  rcases s with _ | ⟨c, s⟩
  · exact numTail_nil
  · exact numTail_iff c (by simp)

theorem numAny1_iff {ty ty' : NumType} {s buf b r : Bytes} :
    numAny1 ty buf s = some (ty', b, r) ↔
      ∃ ds f e, AllDigits ds ∧ TailStop Digit f e r ∧ s = ds ++ f ++ e ++ r ∧
        b = buf ++ ds ++ f ++ e ∧ ty' = tailType ty f e := by
  have hP : ∀ c, Digit c → c ≠ 0x2E ∧ ¬ IsE c := by
    intro c h; unfold Digit at h; unfold IsE; omega
  induction s generalizing buf with
  | nil =>
    simp only [numAny1]
    rw [numTail_nil (P := Digit)]
    constructor
    · rintro ⟨f, e, h1, h2, rfl, rfl⟩
      exact ⟨[], f, e, .nil, h1, by simpa using h2, by simp, rfl⟩
    · rintro ⟨ds, f, e, h0, h1, h2, rfl, rfl⟩
      have : ds = [] := by
        have := List.append_eq_nil_iff.1 h2.symm
        exact (List.append_eq_nil_iff.1 (List.append_eq_nil_iff.1 this.1).1).1
      subst this
      exact ⟨f, e, h1, by simpa using h2, by simp, rfl⟩
  | cons c s ih =>
    simp only [numAny1]
    by_cases hc : Digit c
    · rw [if_pos (isDigit_iff.2 hc)]
      refine Iff.trans ih ?_
      constructor
      · rintro ⟨ds, f, e, h1, h2, rfl, rfl, rfl⟩
        exact ⟨c :: ds, f, e, AllDigits.cons.2 ⟨hc, h1⟩, h2, rfl, by simp, rfl⟩
      · rintro ⟨ds, f, e, h1, h2, h3, rfl, rfl⟩
        rcases ds with _ | ⟨d, ds⟩
        · exact absurd hc (h2.head hP (by simpa using h3))
        · simp only [List.cons_append, List.cons.injEq] at h3
          obtain ⟨rfl, rfl⟩ := h3
          exact ⟨ds, f, e, (AllDigits.cons.1 h1).2, h2, rfl, by simp, rfl⟩
    · rw [if_neg (by rw [isDigit_iff]; exact hc), numTail_iff c hc]
      constructor
      · rintro ⟨f, e, h1, h2, rfl, rfl⟩
        exact ⟨[], f, e, .nil, h1, by simpa using h2, by simp, rfl⟩
      · rintro ⟨ds, f, e, h0, h1, h2, rfl, rfl⟩
        rcases ds with _ | ⟨d, ds⟩
        · exact ⟨f, e, h1, by simpa using h2, by simp, rfl⟩
        · simp only [List.cons_append, List.cons.injEq] at h2
          exact absurd (h2.1 ▸ (AllDigits.cons.1 h0).1) hc

/-- what would go on after this integer part -/
def goesOn (i : Bytes) (c : Nat) : Prop := i ≠ [0x30] ∧ Digit c

/-- the integer part, from its first byte: zero or digits -/
theorem numInt_iff {ty ty' : NumType} {s buf b r : Bytes} {c : Nat} (hc : Digit c) :
    (if c = 0x30 then numZero ty (buf ++ [c]) s else numAny1 ty (buf ++ [c]) s) =
        some (ty', b, r) ↔
      ∃ i f e, IntPart i ∧ TailStop (goesOn i) f e r ∧ c :: s = i ++ f ++ e ++ r ∧
        b = buf ++ i ++ f ++ e ∧ ty' = tailType ty f e := by
  by_cases h0 : c = 0x30
  · subst h0
    rw [if_pos rfl, numZero_iff]
    have hg : goesOn [0x30] = fun _ => False := by funext c; simp [goesOn]
    constructor
    · rintro ⟨f, e, h1, rfl, rfl, rfl⟩
      exact ⟨[0x30], f, e, .inl rfl, by rw [hg]; exact h1, by simp, by simp, rfl⟩
    · rintro ⟨i, f, e, h1, h2, h3, rfl, rfl⟩
      have : i = [0x30] := by
        rcases h1 with h1 | ⟨h1, h1'⟩
        · exact h1
        · rcases i with _ | ⟨d, ds⟩
          · exact absurd rfl h1.1
          · simp only [List.cons_append, List.cons.injEq] at h3
            simp [← h3.1] at h1'
      subst this
      rw [hg] at h2
      exact ⟨f, e, h2, by simpa using h3, by simp, rfl⟩
  · rw [if_neg h0, numAny1_iff]
    have hg : ∀ ds, goesOn (c :: ds) = Digit := by
      intro ds; funext d; simp [goesOn, h0]
    constructor
    · rintro ⟨ds, f, e, h1, h2, rfl, rfl, rfl⟩
      exact ⟨c :: ds, f, e, .inr ⟨⟨by simp, AllDigits.cons.2 ⟨hc, h1⟩⟩, by simpa using h0⟩,
        by rw [hg]; exact h2, by simp, by simp, rfl⟩
    · rintro ⟨i, f, e, h1, h2, h3, rfl, rfl⟩
      rcases i with _ | ⟨d, ds⟩
      · rcases h1 with h1 | h1
        · cases h1
        · exact absurd rfl h1.1.1
      · simp only [List.cons_append, List.cons.injEq] at h3
        obtain ⟨rfl, rfl⟩ := h3
        rw [hg] at h2
        refine ⟨ds, f, e, ?_, h2, rfl, by simp, rfl⟩
        rcases h1 with h1 | h1
        · simp only [List.cons.injEq] at h1
          exact absurd h1.1 h0
        · exact (AllDigits.cons.1 h1.1.2).2

/-- the type a sign gives -/
def signType (sg : Bytes) : NumType := if sg = [] then .unsigned else .integer

theorem IntPart.head {i : Bytes} (h : IntPart i) : ∃ d ds, i = d :: ds ∧ Digit d := by
  rcases h with rfl | ⟨h, _⟩
  · exact ⟨0x30, [], rfl, by unfold Digit; omega⟩
  · rcases i with _ | ⟨d, ds⟩
    · exact absurd rfl h.1
    · exact ⟨d, ds, rfl, h.2 d (by simp)⟩

theorem numInit_iff {ty : NumType} {s b r : Bytes} {c : Nat} (hc : c = 0x2D ∨ Digit c) :
    numInit c s = some (ty, b, r) ↔
      ∃ sg i f e, Sign sg ∧ IntPart i ∧ TailStop (goesOn i) f e r ∧
        c :: s = sg ++ i ++ f ++ e ++ r ∧ b = sg ++ i ++ f ++ e ∧
        ty = tailType (signType sg) f e := by
  unfold numInit
  by_cases hm : c = 0x2D
  · subst hm
    rw [if_pos rfl]
    have key : ∀ d s', Digit d → (numMinus [0x2D] (d :: s') =
        if d = 0x30 then numZero .integer ([0x2D] ++ [d]) s' else numAny1 .integer ([0x2D] ++ [d]) s') := by
      intro d s' hd
      unfold Digit at hd
      simp only [numMinus]
      split
      · rfl
      · rw [if_pos (by omega)]
    constructor
    · intro h
      rcases s with _ | ⟨d, s⟩
      · cases h
      · have hd : Digit d := by
          simp only [numMinus] at h
          unfold Digit
          split at h
          · omega
          · split at h
            · omega
            · cases h
        rw [key d s hd, numInt_iff hd] at h
        obtain ⟨i, f, e, h1, h2, h3, rfl, rfl⟩ := h
        exact ⟨[0x2D], i, f, e, .inr rfl, h1, h2, by simp [h3], by simp, by simp [signType]⟩
    · rintro ⟨sg, i, f, e, h0, h1, h2, h3, rfl, rfl⟩
      obtain ⟨d, ds, rfl, hd⟩ := IntPart.head h1
      rcases h0 with rfl | rfl
      · simp only [List.nil_append, List.cons_append, List.cons.injEq] at h3
        unfold Digit at hd
        omega
      · simp only [List.cons_append, List.nil_append, List.cons.injEq, true_and] at h3
        subst h3
        rw [key d _ hd, numInt_iff hd]
        exact ⟨d :: ds, f, e, h1, h2, by simp, by simp, by simp [signType]⟩
  · have hd : Digit c := hc.resolve_left hm
    rw [if_neg hm]
    have := numInt_iff (ty := .unsigned) (ty' := ty) (s := s) (buf := []) (b := b) (r := r) hd
    simp only [List.nil_append] at this
    rw [this]
    constructor
    · rintro ⟨i, f, e, h1, h2, h3, rfl, rfl⟩
      exact ⟨[], i, f, e, .inl rfl, h1, h2, by simpa using h3, by simp, by simp [signType]⟩
    · rintro ⟨sg, i, f, e, h0, h1, h2, h3, rfl, rfl⟩
      rcases h0 with rfl | rfl
      · exact ⟨i, f, e, h1, h2, by simpa using h3, by simp, by simp [signType]⟩
      · simp only [List.cons_append, List.nil_append, List.cons.injEq] at h3
        exact absurd h3.1 hm

end Verif.Json
