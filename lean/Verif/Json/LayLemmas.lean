import Verif.Json.SegLemmas
import Verif.Json.IntLemmas
import Verif.Json.Props

/-!
# Lemmas about the writing of values
-/

namespace Verif.Json
open Spec

/-! ## What is to be written -/

namespace Spec
open Classical in
/-- the parts of a string of bytes; there is always one list of them, see `Segs.unique` -/
noncomputable def parts (s : Bytes) : List (Option Nat) :=
  if h : ∃ gs, Segs s gs then h.choose else []

/-- the string can be written: with the strict handler it must be UTF-8 -/
def Writable (h : Handler) (s : Bytes) : Prop := h = .strict → none ∉ parts s

/-- the characters that are written -/
noncomputable def chars (h : Handler) (s : Bytes) : List Nat := (wanted h (parts s)).getD []

/-- texts, separated -/
def sepBy (sep : Bytes) : List Bytes → Bytes
  | [] => []
  | [t] => t
  | t :: t' :: ts => t ++ sep ++ sepBy sep (t' :: ts)

/-- a block between brackets, at a depth: on one line, or each item on its own line, one deeper -/
def block (op cl : Nat) (ind : Option (Nat → Bytes)) (d : Nat) (items : List Bytes) : Bytes :=
  match items, ind with
  | [], _ => [op, cl]
  | items, none => op :: (sepBy [0x2C] items ++ [cl])
  | items, some f =>
    op :: 0x0A :: (sepBy [0x2C, 0x0A] (items.map (f (d + 1) ++ ·)) ++ 0x0A :: (f d ++ [cl]))

/-- a string between quotes -/
noncomputable def quoted (h : Handler) (ascii : Bool) (s : Bytes) : Bytes :=
  0x22 :: (escapedAll ascii (chars h s) ++ [0x22])

/-- the colon of a member -/
def colon (ind : Option (Nat → Bytes)) : Bytes := if ind.isSome then [0x3A, 0x20] else [0x3A]

mutual
/-- the text of a value at a depth, with `ind` the indentation for a depth, if any -/
noncomputable def layV (fl : Floats F) (h : Handler) (ascii : Bool) (ind : Option (Nat → Bytes))
    (d : Nat) : Json F → Bytes
  | .null => [0x6E, 0x75, 0x6C, 0x6C]
  | .bool b => if b then [0x74, 0x72, 0x75, 0x65] else [0x66, 0x61, 0x6C, 0x73, 0x65]
  | .int i => integer i
  | .uint n => integer n
  | .float x => if fl.finite x then fl.shortest x else [0x6E, 0x75, 0x6C, 0x6C]
  | .str s => quoted h ascii s
  | .arr xs => block 0x5B 0x5D ind d (layL fl h ascii ind (d + 1) xs)
  | .obj ms => block 0x7B 0x7D ind d (layM fl h ascii ind (d + 1) ms)
noncomputable def layL (fl : Floats F) (h : Handler) (ascii : Bool) (ind : Option (Nat → Bytes))
    (d : Nat) : List (Json F) → List Bytes
  | [] => []
  | v :: vs => layV fl h ascii ind d v :: layL fl h ascii ind d vs
noncomputable def layM (fl : Floats F) (h : Handler) (ascii : Bool) (ind : Option (Nat → Bytes))
    (d : Nat) : List (Bytes × Json F) → List Bytes
  | [] => []
  | (k, v) :: ms =>
    (quoted h ascii k ++ colon ind ++ layV fl h ascii ind d v) :: layM fl h ascii ind d ms
end

mutual
/-- the values a program can hold: integers of 64 bits, strings of bytes -/
def Held : Json F → Prop
  | .int i => -(2 ^ 63) ≤ i ∧ i < 2 ^ 63
  | .uint n => n < 2 ^ 64
  | .str s => ∀ b ∈ s, b < 256
  | .arr xs => HeldL xs
  | .obj ms => HeldM ms
  | .null | .bool _ | .float _ => True
def HeldL : List (Json F) → Prop
  | [] => True
  | v :: vs => Held v ∧ HeldL vs
def HeldM : List (Bytes × Json F) → Prop
  | [] => True
  | (k, v) :: ms => (∀ b ∈ k, b < 256) ∧ Held v ∧ HeldM ms
end

end Spec

/-! ## Strings -/

theorem parts_segs {s : Bytes} (hs : ∀ b ∈ s, b < 256) : Segs s (parts s) := by
  unfold parts
  rw [dif_pos (segs_exist hs)]
  exact (segs_exist hs).choose_spec

theorem parts_eq {s : Bytes} {gs : List (Option Nat)} (h : Segs s gs) : parts s = gs := by
  unfold parts
  rw [dif_pos ⟨gs, h⟩]
  exact Segs.unique (Exists.choose_spec (⟨gs, h⟩ : ∃ gs, Segs s gs)) h

theorem dumpString_eq (o : Opt) {s : Bytes} (hs : ∀ b ∈ s, b < 256) :
    (Writable o.handler s ∧ dumpString o s = .ok (quoted o.handler o.ascii s)) ∨
    (¬ Writable o.handler s ∧ dumpString o s = .throws "type_error.316") := by
  obtain ⟨gs, hg, he⟩ := dumpEscaped_eq o.handler o.ascii hs
  have hp := parts_eq hg
  unfold dumpString Writable quoted chars
  rw [he, hp]
  unfold rest
  cases ho : o.handler with
  | strict =>
    rcases wanted_strict (gs := gs) with ⟨h1, h2⟩ | ⟨cs, rfl, h2⟩
    · rw [h2]
      exact .inr ⟨by simp [h1], rfl⟩
    · rw [h2]
      exact .inl ⟨by simp, by simp [Outcome.bind]⟩
  | replace =>
    rw [wanted_replace]
    exact .inl ⟨by simp, by simp [Outcome.bind]⟩
  | ignore =>
    rw [wanted_ignore]
    exact .inl ⟨by simp, by simp [Outcome.bind]⟩

/-! ## Indentation -/

/-- the string of indentation: 512 times the character, then blanks -/
def pad (ic L : Nat) : Bytes := List.replicate (min L 512) ic ++ List.replicate (L - 512) 0x20

theorem pad_length (ic L : Nat) : (pad ic L).length = L := by
  unfold pad
  simp
  omega

theorem pad_take (ic : Nat) {n L : Nat} (h : n ≤ L) : (pad ic L).take n = pad ic n := by
  unfold pad
  rw [List.take_append, List.take_replicate, List.take_replicate, List.length_replicate,
    show min n (min L 512) = min n 512 by omega, show min (n - min L 512) (L - 512) = n - 512 by omega]

theorem writeIndent_pad (ic : Nat) {n L : Nat} (h : n ≤ L) : writeIndent (pad ic L) n = .ok (pad ic n) := by
  rw [writeIndent, pad_length, if_pos h, pad_take ic h]

theorem growIndent_pad (ic : Nat) {n L : Nat} (hL : 512 ≤ L) (h : n ≤ 2 * L) :
    ∃ L', L ≤ L' ∧ n ≤ L' ∧ growIndent (pad ic L) n = pad ic L' := by
  unfold growIndent
  rw [pad_length]
  by_cases hn : L < n
  · refine ⟨2 * L, by omega, h, ?_⟩
    rw [if_pos hn]
    unfold pad
    rw [List.append_assoc, List.replicate_append_replicate, show min (2 * L) 512 = min L 512 by omega,
      show L - 512 + L = 2 * L - 512 by omega]
  · exact ⟨L, Nat.le_refl L, by omega, by rw [if_neg hn]⟩

theorem sepBy_cons_ne (sep t : Bytes) {ts : List Bytes} (h : ts ≠ []) :
    sepBy sep (t :: ts) = t ++ sep ++ sepBy sep ts := by
  cases ts with
  | nil => exact absurd rfl h
  | cons t' ts => rw [sepBy]

/-- the result of writing: the text if all strings can be written, or the exception -/
def Result (h : Handler) (ss : List Bytes) (out : Outcome (Bytes × Bytes)) (t : Bytes) (ic L : Nat) : Prop :=
  ((∀ s ∈ ss, Writable h s) ∧ ∃ L', L ≤ L' ∧ out = .ok (t, pad ic L')) ∨
  ((∃ s ∈ ss, ¬ Writable h s) ∧ out = .throws "type_error.316")

theorem isEmpty_false {α : Type} {x : α} {xs : List α} : (x :: xs).isEmpty = false := rfl

mutual
theorem dumpV_pretty (fl : Floats F) (o : Opt) (ic : Nat) (hp : o.pretty = true) (hstep : o.step ≤ 1024) :
    ∀ (v : Json F) (d L : Nat), Held v → 512 ≤ L → d * o.step ≤ L → (d = 0 ∨ o.step ≤ L) →
      Result o.handler (strings v) (dumpV fl o (d * o.step) (pad ic L) v)
        (layV fl o.handler o.ascii (some fun k => pad ic (k * o.step)) d v) ic L
  | .null, d, L, _, _, _, _ => .inl ⟨by simp [strings], L, Nat.le_refl L, rfl⟩
  | .bool b, d, L, _, _, _, _ => .inl ⟨by simp [strings], L, Nat.le_refl L, by cases b <;> rfl⟩
  | .int i, d, L, hh, _, _, _ => by
    rw [Held] at hh
    refine .inl ⟨by simp [strings], L, Nat.le_refl L, ?_⟩
    rw [dumpV, dumpInteger_eq hh.1 (by omega), layV]
    rfl
  | .uint n, d, L, hh, _, _, _ => by
    rw [Held] at hh
    refine .inl ⟨by simp [strings], L, Nat.le_refl L, ?_⟩
    rw [dumpV, dumpInteger_eq (by omega) (by omega), layV]
    rfl
  | .float x, d, L, _, _, _, _ => .inl ⟨by simp [strings], L, Nat.le_refl L, rfl⟩
  | .str s, d, L, hh, _, _, _ => by
    rw [Held] at hh
    unfold Result
    rw [dumpV, layV, strings]
    rcases dumpString_eq o hh with ⟨h1, h2⟩ | ⟨h1, h2⟩
    · exact .inl ⟨by simpa using h1, L, Nat.le_refl L, by rw [h2]; rfl⟩
    · exact .inr ⟨by simpa using h1, by rw [h2]; rfl⟩
  | .arr [], d, L, _, _, _, _ => .inl ⟨by simp [strings, stringsL], L, Nat.le_refl L, rfl⟩
  | .arr (v :: vs), d, L, hh, hL, hd, hs => by
    obtain ⟨L1, h1, h2, h3⟩ := growIndent_pad ic (n := (d + 1) * o.step) (L := L) hL (by
      rw [Nat.succ_mul]
      rcases hs with rfl | hs <;> omega)
    have hst : o.step ≤ L1 := by rw [Nat.succ_mul] at h2; omega
    rw [Held] at hh
    have ih := dumpL_pretty fl o ic hp hstep (v :: vs) (d + 1) L1 hh (by omega) h2 hst
    unfold Result
    rw [dumpV, isEmpty_false, if_neg (by simp), if_pos hp, ← Nat.succ_mul, h3, strings]
    rcases ih with ⟨h4, L2, h5, h6⟩ | ⟨h4, h6⟩
    · refine .inl ⟨h4, L2, by omega, ?_⟩
      rw [h6]
      simp only [Outcome.bind]
      rw [writeIndent_pad ic (show d * o.step ≤ L2 by omega)]
      simp only [Outcome.ok.injEq, Prod.mk.injEq, and_true]
      rw [layV, layL, block]
      simp
      simp
    · refine .inr ⟨h4, ?_⟩
      rw [h6]
      rfl
  | .obj [], d, L, _, _, _, _ => .inl ⟨by simp [strings, stringsM], L, Nat.le_refl L, rfl⟩
  | .obj ((k, v) :: ms), d, L, hh, hL, hd, hs => by
    obtain ⟨L1, h1, h2, h3⟩ := growIndent_pad ic (n := (d + 1) * o.step) (L := L) hL (by
      rw [Nat.succ_mul]
      rcases hs with rfl | hs <;> omega)
    have hst : o.step ≤ L1 := by rw [Nat.succ_mul] at h2; omega
    rw [Held] at hh
    have ih := dumpM_pretty fl o ic hp hstep ((k, v) :: ms) (d + 1) L1 hh (by omega) h2 hst
    unfold Result
    rw [dumpV, isEmpty_false, if_neg (by simp), if_pos hp, ← Nat.succ_mul, h3, strings]
    rcases ih with ⟨h4, L2, h5, h6⟩ | ⟨h4, h6⟩
    · refine .inl ⟨h4, L2, by omega, ?_⟩
      rw [h6]
      simp only [Outcome.bind]
      rw [writeIndent_pad ic (show d * o.step ≤ L2 by omega)]
      simp only [Outcome.ok.injEq, Prod.mk.injEq, and_true]
      rw [layV, layM, block]
      simp
      simp
    · refine .inr ⟨h4, ?_⟩
      rw [h6]
      rfl
theorem dumpL_pretty (fl : Floats F) (o : Opt) (ic : Nat) (hp : o.pretty = true) (hstep : o.step ≤ 1024) :
    ∀ (vs : List (Json F)) (d L : Nat), HeldL vs → 512 ≤ L → d * o.step ≤ L → o.step ≤ L →
      Result o.handler (stringsL vs) (dumpL fl o (d * o.step) (pad ic L) vs)
        (sepBy [0x2C, 0x0A] ((layL fl o.handler o.ascii (some fun k => pad ic (k * o.step)) d vs).map
          (pad ic (d * o.step) ++ ·))) ic L
  | [], d, L, _, _, _, _ => .inl ⟨by simp [stringsL], L, Nat.le_refl L, rfl⟩
  | v :: vs, d, L, hh, hL, hd, hs => by
    rw [HeldL] at hh
    have ih := dumpV_pretty fl o ic hp hstep v d L hh.1 hL hd (.inr hs)
    unfold Result
    rw [dumpL, if_pos hp, writeIndent_pad ic hd, stringsL]
    simp only [Outcome.bind]
    rcases ih with ⟨h4, L2, h5, h6⟩ | ⟨h4, h6⟩
    · rw [h6]
      simp only
      cases vs with
      | nil =>
        refine .inl ⟨by simpa [stringsL] using h4, L2, h5, ?_⟩
        rw [layL, layL]
        rfl
      | cons v' vs =>
        rw [isEmpty_false, if_neg (by simp), layL]
        have ih2 := dumpL_pretty fl o ic hp hstep (v' :: vs) d L2 hh.2 (by omega) (by omega) (by omega)
        rcases ih2 with ⟨h7, L3, h8, h9⟩ | ⟨h7, h9⟩
        · refine .inl ⟨fun s hs => (List.mem_append.mp hs).elim (h4 s) (h7 s), L3, by omega, ?_⟩
          rw [h9, List.map_cons, sepBy_cons_ne _ _ (by simp [layL])]
          simp [hp]
        · obtain ⟨s, hs1, hs2⟩ := h7
          refine .inr ⟨⟨s, List.mem_append.mpr (.inr hs1), hs2⟩, ?_⟩
          rw [h9]
    · obtain ⟨s, hs1, hs2⟩ := h4
      refine .inr ⟨⟨s, List.mem_append.mpr (.inl hs1), hs2⟩, ?_⟩
      rw [h6]
theorem dumpM_pretty (fl : Floats F) (o : Opt) (ic : Nat) (hp : o.pretty = true) (hstep : o.step ≤ 1024) :
    ∀ (ms : List (Bytes × Json F)) (d L : Nat), HeldM ms → 512 ≤ L → d * o.step ≤ L → o.step ≤ L →
      Result o.handler (stringsM ms) (dumpM fl o (d * o.step) (pad ic L) ms)
        (sepBy [0x2C, 0x0A] ((layM fl o.handler o.ascii (some fun k => pad ic (k * o.step)) d ms).map
          (pad ic (d * o.step) ++ ·))) ic L
  | [], d, L, _, _, _, _ => .inl ⟨by simp [stringsM], L, Nat.le_refl L, rfl⟩
  | (k, v) :: ms, d, L, hh, hL, hd, hs => by
    rw [HeldM] at hh
    have ih := dumpV_pretty fl o ic hp hstep v d L hh.2.1 hL hd (.inr hs)
    unfold Result
    rw [dumpM, if_pos hp, writeIndent_pad ic hd, stringsM]
    simp only [Outcome.bind]
    rcases dumpString_eq o hh.1 with ⟨hk1, hk2⟩ | ⟨hk1, hk2⟩
    · rw [hk2]
      simp only
      rcases ih with ⟨h4, L2, h5, h6⟩ | ⟨h4, h6⟩
      · rw [h6]
        simp only
        cases ms with
        | nil =>
          refine .inl ⟨?_, L2, h5, ?_⟩
          · intro s hs
            simp only [stringsM, List.append_nil, List.mem_cons] at hs
            rcases hs with rfl | hs
            · exact hk1
            · exact h4 s hs
          · rw [layM, layM]
            simp [hp, sepBy, colon]
        | cons m ms =>
          rw [isEmpty_false, if_neg (by simp), layM]
          have ih2 := dumpM_pretty fl o ic hp hstep (m :: ms) d L2 hh.2.2 (by omega) (by omega) (by omega)
          rcases ih2 with ⟨h7, L3, h8, h9⟩ | ⟨h7, h9⟩
          · refine .inl ⟨?_, L3, by omega, ?_⟩
            · intro s hs
              rcases List.mem_cons.mp hs with rfl | hs
              · exact hk1
              · exact (List.mem_append.mp hs).elim (h4 s) (h7 s)
            · rw [h9, List.map_cons, sepBy_cons_ne _ _ (by obtain ⟨a, b⟩ := m; simp [layM])]
              simp [hp, colon]
          · obtain ⟨s, hs1, hs2⟩ := h7
            refine .inr ⟨⟨s, List.mem_cons_of_mem _ (List.mem_append.mpr (.inr hs1)), hs2⟩, ?_⟩
            rw [h9]
      · obtain ⟨s, hs1, hs2⟩ := h4
        refine .inr ⟨⟨s, List.mem_cons_of_mem _ (List.mem_append.mpr (.inl hs1)), hs2⟩, ?_⟩
        rw [h6]
    · refine .inr ⟨⟨k, List.mem_cons_self, hk1⟩, ?_⟩
      rw [hk2]
end

mutual
theorem dumpV_compact (fl : Floats F) (o : Opt) (ic L cur : Nat) (hp : o.pretty = false) :
    ∀ (v : Json F) (d : Nat), Held v →
      Result o.handler (strings v) (dumpV fl o cur (pad ic L) v) (layV fl o.handler o.ascii none d v) ic L
  | .null, d, _ => .inl ⟨by simp [strings], L, Nat.le_refl L, rfl⟩
  | .bool b, d, _ => .inl ⟨by simp [strings], L, Nat.le_refl L, by cases b <;> rfl⟩
  | .int i, d, hh => by
    rw [Held] at hh
    refine .inl ⟨by simp [strings], L, Nat.le_refl L, ?_⟩
    rw [dumpV, dumpInteger_eq hh.1 (by omega), layV]
    rfl
  | .uint n, d, hh => by
    rw [Held] at hh
    refine .inl ⟨by simp [strings], L, Nat.le_refl L, ?_⟩
    rw [dumpV, dumpInteger_eq (by omega) (by omega), layV]
    rfl
  | .float x, d, _ => .inl ⟨by simp [strings], L, Nat.le_refl L, rfl⟩
  | .str s, d, hh => by
    rw [Held] at hh
    unfold Result
    rw [dumpV, layV, strings]
    rcases dumpString_eq o hh with ⟨h1, h2⟩ | ⟨h1, h2⟩
    · exact .inl ⟨by simpa using h1, L, Nat.le_refl L, by rw [h2]; rfl⟩
    · exact .inr ⟨by simpa using h1, by rw [h2]; rfl⟩
  | .arr [], d, _ => .inl ⟨by simp [strings, stringsL], L, Nat.le_refl L, rfl⟩
  | .arr (v :: vs), d, hh => by
    rw [Held] at hh
    have ih := dumpL_compact fl o ic L cur hp (v :: vs) (d + 1) hh
    unfold Result
    rw [dumpV, isEmpty_false, if_neg (by simp), if_neg (by simp [hp]), strings]
    rcases ih with ⟨h4, L2, h5, h6⟩ | ⟨h4, h6⟩
    · refine .inl ⟨h4, L2, by omega, ?_⟩
      rw [h6]
      simp only [Outcome.bind, Outcome.ok.injEq, Prod.mk.injEq, and_true]
      rw [layV, layL, block]
      simp
    · refine .inr ⟨h4, ?_⟩
      rw [h6]
      rfl
  | .obj [], d, _ => .inl ⟨by simp [strings, stringsM], L, Nat.le_refl L, rfl⟩
  | .obj ((k, v) :: ms), d, hh => by
    rw [Held] at hh
    have ih := dumpM_compact fl o ic L cur hp ((k, v) :: ms) (d + 1) hh
    unfold Result
    rw [dumpV, isEmpty_false, if_neg (by simp), if_neg (by simp [hp]), strings]
    rcases ih with ⟨h4, L2, h5, h6⟩ | ⟨h4, h6⟩
    · refine .inl ⟨h4, L2, by omega, ?_⟩
      rw [h6]
      simp only [Outcome.bind, Outcome.ok.injEq, Prod.mk.injEq, and_true]
      rw [layV, layM, block]
      simp
    · refine .inr ⟨h4, ?_⟩
      rw [h6]
      rfl
theorem dumpL_compact (fl : Floats F) (o : Opt) (ic L cur : Nat) (hp : o.pretty = false) :
    ∀ (vs : List (Json F)) (d : Nat), HeldL vs →
      Result o.handler (stringsL vs) (dumpL fl o cur (pad ic L) vs)
        (sepBy [0x2C] (layL fl o.handler o.ascii none d vs)) ic L
  | [], d, _ => .inl ⟨by simp [stringsL], L, Nat.le_refl L, rfl⟩
  | v :: vs, d, hh => by
    rw [HeldL] at hh
    have ih := dumpV_compact fl o ic L cur hp v d hh.1
    unfold Result
    rw [dumpL, if_neg (by simp [hp]), stringsL]
    simp only [Outcome.bind]
    rcases ih with ⟨h4, L2, h5, h6⟩ | ⟨h4, h6⟩
    · rw [h6]
      simp only
      cases vs with
      | nil =>
        refine .inl ⟨by simpa [stringsL] using h4, L2, h5, ?_⟩
        rw [layL, layL]
        rfl
      | cons v' vs =>
        rw [isEmpty_false, if_neg (by simp), layL]
        have ih2 := dumpL_compact fl o ic L2 cur hp (v' :: vs) d hh.2
        rcases ih2 with ⟨h7, L3, h8, h9⟩ | ⟨h7, h9⟩
        · refine .inl ⟨fun s hs => (List.mem_append.mp hs).elim (h4 s) (h7 s), L3, by omega, ?_⟩
          rw [h9, sepBy_cons_ne _ _ (by simp [layL])]
          simp [hp]
        · obtain ⟨s, hs1, hs2⟩ := h7
          refine .inr ⟨⟨s, List.mem_append.mpr (.inr hs1), hs2⟩, ?_⟩
          rw [h9]
    · obtain ⟨s, hs1, hs2⟩ := h4
      refine .inr ⟨⟨s, List.mem_append.mpr (.inl hs1), hs2⟩, ?_⟩
      rw [h6]
theorem dumpM_compact (fl : Floats F) (o : Opt) (ic L cur : Nat) (hp : o.pretty = false) :
    ∀ (ms : List (Bytes × Json F)) (d : Nat), HeldM ms →
      Result o.handler (stringsM ms) (dumpM fl o cur (pad ic L) ms)
        (sepBy [0x2C] (layM fl o.handler o.ascii none d ms)) ic L
  | [], d, _ => .inl ⟨by simp [stringsM], L, Nat.le_refl L, rfl⟩
  | (k, v) :: ms, d, hh => by
    rw [HeldM] at hh
    have ih := dumpV_compact fl o ic L cur hp v d hh.2.1
    unfold Result
    rw [dumpM, if_neg (by simp [hp]), stringsM]
    simp only [Outcome.bind]
    rcases dumpString_eq o hh.1 with ⟨hk1, hk2⟩ | ⟨hk1, hk2⟩
    · rw [hk2]
      simp only
      rcases ih with ⟨h4, L2, h5, h6⟩ | ⟨h4, h6⟩
      · rw [h6]
        simp only
        cases ms with
        | nil =>
          refine .inl ⟨?_, L2, h5, ?_⟩
          · intro s hs
            simp only [stringsM, List.append_nil, List.mem_cons] at hs
            rcases hs with rfl | hs
            · exact hk1
            · exact h4 s hs
          · rw [layM, layM]
            simp [hp, sepBy, colon]
        | cons m ms =>
          rw [isEmpty_false, if_neg (by simp), layM]
          have ih2 := dumpM_compact fl o ic L2 cur hp (m :: ms) d hh.2.2
          rcases ih2 with ⟨h7, L3, h8, h9⟩ | ⟨h7, h9⟩
          · refine .inl ⟨?_, L3, by omega, ?_⟩
            · intro s hs
              rcases List.mem_cons.mp hs with rfl | hs
              · exact hk1
              · exact (List.mem_append.mp hs).elim (h4 s) (h7 s)
            · rw [h9, sepBy_cons_ne _ _ (by obtain ⟨a, b⟩ := m; simp [layM])]
              simp [hp, colon]
          · obtain ⟨s, hs1, hs2⟩ := h7
            refine .inr ⟨⟨s, List.mem_cons_of_mem _ (List.mem_append.mpr (.inr hs1)), hs2⟩, ?_⟩
            rw [h9]
      · obtain ⟨s, hs1, hs2⟩ := h4
        refine .inr ⟨⟨s, List.mem_cons_of_mem _ (List.mem_append.mpr (.inl hs1)), hs2⟩, ?_⟩
        rw [h6]
    · refine .inr ⟨⟨k, List.mem_cons_self, hk1⟩, ?_⟩
      rw [hk2]
end

end Verif.Json
