import Verif.Json.MsgLemmas

/-!
# Every MessagePack object is read
-/

namespace Verif.Json
open Spec Spec.Msg

theorem msgSize_length_pos {a b c d e n : Nat} {t : Bytes} (h : Size a b c d e n t) : 0 < t.length := by
  cases h <;> simp

theorem msgItem_length_pos {t : Bytes} {v : Json Nat} (h : Spec.Msg.Item t v) : 0 < t.length := by
  cases h with
  | str h => have := msgSize_length_pos h; simp; omega
  | arr h _ => have := msgSize_length_pos h; simp; omega
  | obj h _ => have := msgSize_length_pos h; simp; omega
  | _ => simp

theorem msgItems_length : ∀ {t : Bytes} {vs : List (Json Nat)}, Spec.Msg.Items t vs → vs.length ≤ t.length
  | _, _, .nil => by simp
  | _, _, .cons h h' => by
    have := msgItem_length_pos h
    have := msgItems_length h'
    simp
    omega

theorem msgPairs_length : ∀ {t : Bytes} {ms : List (Bytes × Json Nat)}, Spec.Msg.Pairs t ms → ms.length ≤ t.length
  | _, _, .nil => by simp
  | _, _, .cons h _ h' => by
    have := msgSize_length_pos h
    have := msgPairs_length h'
    simp
    omega

theorem msgStr_read (m : Mach) (ex : Bool) {s t : Bytes} (h : StrSize s.length t) (hr : s.length ≤ m.maxStr) :
    ∃ c t', t = c :: t' ∧ ((0xA0 ≤ c ∧ c ≤ 0xBF) ∨ (0xD9 ≤ c ∧ c ≤ 0xDB)) ∧
      ∀ r, msgString m ex (some c) (t' ++ (s ++ r)) = .ok (s, r) := by
  generalize hn : s.length = n at h
  cases h with
  | small h =>
    refine ⟨_, [], rfl, by omega, fun r => ?_⟩
    simp only [msgString]
    rw [if_pos (by omega), List.nil_append, show (0xA0 + n) % 32 = n by omega]
    exact takeString_append m ex hn (by omega) r
  | @wide k bs hk hl hb =>
    refine ⟨_, bs, rfl, by omega, fun r => ?_⟩
    simp only [msgString]
    have hk : k = 0 ∨ k = 1 ∨ k = 2 := by omega
    rcases hk with rfl | rfl | rfl <;>
      (branch; rw [getNumber_append m hl, Rd.ok_bind]; exact takeString_append m ex hn (by omega) r)

theorem msgArr_head (m : Mach) (ex : Bool) {n : Nat} {t : Bytes} (h : ArrSize n t) :
    ∃ c t', t = c :: t' ∧ ∀ fuel r, msgV m ex (fuel + 1) (some c) (t' ++ r) = msgArr m ex fuel n r := by
  cases h with
  | small h =>
    refine ⟨_, [], rfl, fun fuel r => ?_⟩
    rw [msgV]
    branch
    rw [List.nil_append]
    congr 1
    omega
  | @wide k bs hk hl hb =>
    refine ⟨_, bs, rfl, fun fuel r => ?_⟩
    rw [msgV]
    have hk : k = 0 ∨ k = 1 := by omega
    rcases hk with rfl | rfl <;> (branch; rw [getNumber_append m hl]; rfl)

theorem msgObj_head (m : Mach) (ex : Bool) {n : Nat} {t : Bytes} (h : MapSize n t) :
    ∃ c t', t = c :: t' ∧ ∀ fuel r, msgV m ex (fuel + 1) (some c) (t' ++ r) = msgObj m ex fuel n r := by
  cases h with
  | small h =>
    refine ⟨_, [], rfl, fun fuel r => ?_⟩
    rw [msgV]
    branch
    rw [List.nil_append]
    congr 1
    omega
  | @wide k bs hk hl hb =>
    refine ⟨_, bs, rfl, fun fuel r => ?_⟩
    rw [msgV]
    have hk : k = 0 ∨ k = 1 := by omega
    rcases hk with rfl | rfl <;> (branch; rw [getNumber_append m hl]; rfl)

mutual
theorem msgItem_read (m : Mach) (ex : Bool) {t : Bytes} {v : Json Nat} (h : Spec.Msg.Item t v) (hr : Room m t.length) :
    ∃ c t', t = c :: t' ∧ ∀ fuel r, 3 * t.length ≤ fuel →
      msgV m ex fuel (some c) (t' ++ r) = .ok (events v, r) := by
  match h with
  | .fixUint (n := n) h =>
    refine ⟨_, [], rfl, fun fuel r hf => ?_⟩
    obtain ⟨fuel, rfl⟩ : ∃ f, fuel = f + 1 := ⟨fuel - 1, by simp at hf; omega⟩
    rw [msgV]
    branch
    rfl
  | .fixInt (n := n) h =>
    refine ⟨_, [], rfl, fun fuel r hf => ?_⟩
    obtain ⟨fuel, rfl⟩ : ∃ f, fuel = f + 1 := ⟨fuel - 1, by simp at hf; omega⟩
    rw [msgV]
    branch
    rw [asSigned, if_neg (by omega), events]
    simp only [List.nil_append, Rd.ok.injEq, Prod.mk.injEq, List.cons.injEq, Event.int.injEq, and_true]
    omega
  | .uint (k := k) (bs := bs) hk hl hb =>
    refine ⟨_, bs, rfl, fun fuel r hf => ?_⟩
    obtain ⟨fuel, rfl⟩ : ∃ f, fuel = f + 1 := ⟨fuel - 1, by simp at hf; omega⟩
    rw [msgV]
    rcases four_cases hk with rfl | rfl | rfl | rfl <;> (branch; rw [getNumber_append m hl]; rfl)
  | .int (k := k) (bs := bs) (i := i) hk hl hb h1 h2 h3 =>
    refine ⟨_, bs, rfl, fun fuel r hf => ?_⟩
    obtain ⟨fuel, rfl⟩ : ∃ f, fuel = f + 1 := ⟨fuel - 1, by simp at hf; omega⟩
    rw [msgV, events, ← asSigned_only hk h1 h2 h3]
    rcases four_cases hk with rfl | rfl | rfl | rfl <;> (branch; rw [getNumber_append m hl]; rfl)
  | .single (bs := bs) hl hb =>
    refine ⟨_, bs, rfl, fun fuel r hf => ?_⟩
    obtain ⟨fuel, rfl⟩ : ∃ f, fuel = f + 1 := ⟨fuel - 1, by simp at hf; omega⟩
    rw [msgV]
    branch
    rw [getNumber_append m hl]
    rfl
  | .double (bs := bs) hl hb =>
    refine ⟨_, bs, rfl, fun fuel r hf => ?_⟩
    obtain ⟨fuel, rfl⟩ : ∃ f, fuel = f + 1 := ⟨fuel - 1, by simp at hf; omega⟩
    rw [msgV]
    branch
    rw [getNumber_append m hl]
    rfl
  | .null =>
    refine ⟨_, [], rfl, fun fuel r hf => ?_⟩
    obtain ⟨fuel, rfl⟩ : ∃ f, fuel = f + 1 := ⟨fuel - 1, by simp at hf; omega⟩
    rw [msgV]
    branch
    rfl
  | .false =>
    refine ⟨_, [], rfl, fun fuel r hf => ?_⟩
    obtain ⟨fuel, rfl⟩ : ∃ f, fuel = f + 1 := ⟨fuel - 1, by simp at hf; omega⟩
    rw [msgV]
    branch
    rfl
  | .true =>
    refine ⟨_, [], rfl, fun fuel r hf => ?_⟩
    obtain ⟨fuel, rfl⟩ : ∃ f, fuel = f + 1 := ⟨fuel - 1, by simp at hf; omega⟩
    rw [msgV]
    branch
    rfl
  | .str (t := t) (s := s) h =>
    obtain ⟨c, t', rfl, hc, e⟩ := msgStr_read m ex h (by have := hr.str; simp at this; omega)
    refine ⟨c, t' ++ s, rfl, fun fuel r hf => ?_⟩
    simp only [List.length_append, List.length_cons] at hf
    obtain ⟨fuel, rfl⟩ : ∃ f, fuel = f + 1 := ⟨fuel - 1, by omega⟩
    rw [msgV, List.append_assoc]
    branch
    rw [e r]
    rfl
  | .arr (t := t) (ts := ts) (vs := vs) h h' =>
    obtain ⟨c, t', rfl, e⟩ := msgArr_head m ex h
    refine ⟨c, t' ++ ts, rfl, fun fuel r hf => ?_⟩
    simp only [List.length_append, List.length_cons] at hf
    obtain ⟨fuel, rfl⟩ : ∃ f, fuel = f + 1 + 1 := ⟨fuel - 2, by omega⟩
    have hl := msgItems_length h'
    have h1 := hr.arr
    simp only [List.length_append, List.length_cons] at h1
    rw [List.append_assoc, e, msgArr, if_neg (by omega), msgItems_read m ex h' (hr.mono (by lens)) fuel r (by omega)]
    rfl
  | .obj (t := t) (ts := ts) (ms := ms) h h' =>
    obtain ⟨c, t', rfl, e⟩ := msgObj_head m ex h
    refine ⟨c, t' ++ ts, rfl, fun fuel r hf => ?_⟩
    simp only [List.length_append, List.length_cons] at hf
    obtain ⟨fuel, rfl⟩ : ∃ f, fuel = f + 1 + 1 := ⟨fuel - 2, by omega⟩
    have hl := msgPairs_length h'
    have h1 := hr.obj
    simp only [List.length_append, List.length_cons] at h1
    rw [List.append_assoc, e, msgObj, if_neg (by omega), msgPairs_read m ex h' (hr.mono (by lens)) fuel r (by omega)]
    rfl
theorem msgItems_read (m : Mach) (ex : Bool) {t : Bytes} {vs : List (Json Nat)} (h : Spec.Msg.Items t vs)
    (hr : Room m t.length) : ∀ fuel r, 3 * t.length + 1 ≤ fuel →
      msgElems m ex fuel vs.length (t ++ r) = .ok (eventsL vs, r) := by
  match h with
  | .nil => intro fuel r _; cases fuel <;> simp [msgElems, eventsL]
  | .cons h h' =>
    intro fuel r hf
    obtain ⟨c, t', rfl, e⟩ := msgItem_read m ex h (hr.mono (by lens))
    simp only [List.length_append, List.length_cons] at hf
    obtain ⟨fuel, rfl⟩ : ∃ f, fuel = f + 1 := ⟨fuel - 1, by omega⟩
    rw [List.append_assoc, List.cons_append, List.length_cons, msgElems, e fuel _ (by lens), Rd.ok_bind,
      msgItems_read m ex h' (hr.mono (by lens)) fuel r (by omega)]
    rfl
theorem msgPairs_read (m : Mach) (ex : Bool) {t : Bytes} {ms : List (Bytes × Json Nat)} (h : Spec.Msg.Pairs t ms)
    (hr : Room m t.length) : ∀ fuel r, 3 * t.length + 1 ≤ fuel →
      msgMembers m ex fuel ms.length (t ++ r) = .ok (eventsM ms, r) := by
  match h with
  | .nil => intro fuel r _; cases fuel <;> simp [msgMembers, eventsM]
  | .cons (s := s) hk h h' =>
    intro fuel r hf
    obtain ⟨d, k', rfl, hd, ek⟩ := msgStr_read m ex hk (by have := hr.str; simp at this; omega)
    obtain ⟨c, t', rfl, e⟩ := msgItem_read m ex h (hr.mono (by lens))
    simp only [List.length_append, List.length_cons] at hf
    obtain ⟨fuel, rfl⟩ : ∃ f, fuel = f + 1 := ⟨fuel - 1, by omega⟩
    rw [List.append_assoc, List.cons_append, List.length_cons, msgMembers, List.append_assoc, ek, Rd.ok_bind]
    simp only [List.cons_append, List.append_assoc, List.head?_cons, List.tail_cons]
    rw [e fuel _ (by lens), Rd.ok_bind, msgPairs_read m ex h' (hr.mono (by lens)) fuel r (by omega)]
    rfl
end

end Verif.Json
