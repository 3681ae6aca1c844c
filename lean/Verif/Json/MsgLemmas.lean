import Verif.Json.MsgModel
import Verif.Json.CborRun

/-!
# MessagePack, as its specification defines it, and the reader of the code
-/

namespace Verif.Json

namespace Spec.Msg

/-- a length (of a string, array or map): the number, and the bytes.  Below `room` it stands in the first byte, on top
of `fixed`; otherwise there are `count` forms, with the first bytes `next`, `next + 1` …, followed by `width`, twice
`width` … bytes. -/
inductive Size (fixed room next width count : Nat) : Nat → Bytes → Prop
  | small {n : Nat} : n < room → Size fixed room next width count n [fixed + n]
  | wide {k : Nat} {bs : Bytes} : k < count → bs.length = width * 2 ^ k → (∀ b ∈ bs, b < 256) →
      Size fixed room next width count (big bs) ((next + k) :: bs)

/-- the length of a string: fixstr, str 8, str 16, str 32 -/
abbrev StrSize := Size 0xA0 32 0xD9 1 3
/-- the length of an array: fixarray, array 16, array 32 -/
abbrev ArrSize := Size 0x90 16 0xDC 2 2
/-- the length of a map: fixmap, map 16, map 32 -/
abbrev MapSize := Size 0x80 16 0xDE 2 2

mutual
/-- the objects of MessagePack that have a counterpart in JSON, and their value, with the members of maps in the order
of the text, repeated names included -/
inductive Item : Bytes → Json Nat → Prop
  | fixUint {n : Nat} : n < 128 → Item [n] (.uint n)
  | fixInt {n : Nat} : n < 32 → Item [0xE0 + n] (.int (n - 32))
  | uint {k : Nat} {bs : Bytes} : k < 4 → bs.length = 2 ^ k → (∀ b ∈ bs, b < 256) →
      Item ((0xCC + k) :: bs) (.uint (big bs))
  | int {k : Nat} {bs : Bytes} {i : Int} : k < 4 → bs.length = 2 ^ k → (∀ b ∈ bs, b < 256) →
      -2 ^ (8 * 2 ^ k - 1) ≤ i → i < 2 ^ (8 * 2 ^ k - 1) → i % 2 ^ (8 * 2 ^ k) = big bs → Item ((0xD0 + k) :: bs) (.int i)
  | single {bs : Bytes} : bs.length = 4 → (∀ b ∈ bs, b < 256) →
      Item (0xCA :: bs) (.float (readSingle (big bs)))
  | double {bs : Bytes} : bs.length = 8 → (∀ b ∈ bs, b < 256) → Item (0xCB :: bs) (.float (big bs))
  | null : Item [0xC0] .null
  | false : Item [0xC2] (.bool false)
  | true : Item [0xC3] (.bool true)
  | str {t s : Bytes} : StrSize s.length t → Item (t ++ s) (.str s)
  | arr {t ts : Bytes} {vs : List (Json Nat)} : ArrSize vs.length t → Items ts vs → Item (t ++ ts) (.arr vs)
  | obj {t ts : Bytes} {ms : List (Bytes × Json Nat)} : MapSize ms.length t → Pairs ts ms → Item (t ++ ts) (.obj ms)
/-- objects one after the other -/
inductive Items : Bytes → List (Json Nat) → Prop
  | nil : Items [] []
  | cons {t ts : Bytes} {v : Json Nat} {vs : List (Json Nat)} : Item t v → Items ts vs → Items (t ++ ts) (v :: vs)
/-- names and values one after the other -/
inductive Pairs : Bytes → List (Bytes × Json Nat) → Prop
  | nil : Pairs [] []
  | cons {k s t ts : Bytes} {v : Json Nat} {ms : List (Bytes × Json Nat)} : StrSize s.length k → Item t v →
      Pairs ts ms → Pairs (k ++ (s ++ (t ++ ts))) ((s, v) :: ms)
end

end Spec.Msg

open Spec Spec.Msg

/-! ## What is read is an object -/

theorem asSigned_spec {k n : Nat} (hk : k < 4) (hn : n < 256 ^ 2 ^ k) :
    -2 ^ (8 * 2 ^ k - 1) ≤ asSigned (2 ^ k) n ∧ asSigned (2 ^ k) n < 2 ^ (8 * 2 ^ k - 1) ∧
      asSigned (2 ^ k) n % 2 ^ (8 * 2 ^ k) = n := by
  rw [asSigned]
  rcases four_cases hk with rfl | rfl | rfl | rfl <;> simp only [Nat.reducePow, Nat.reduceMul, Nat.reduceSub] at hn ⊢ <;>
    split <;> omega

theorem asSigned_only {k n : Nat} {i : Int} (hk : k < 4) (h1 : -2 ^ (8 * 2 ^ k - 1) ≤ i) (h2 : i < 2 ^ (8 * 2 ^ k - 1))
    (h3 : i % 2 ^ (8 * 2 ^ k) = n) : asSigned (2 ^ k) n = i := by
  rw [asSigned]
  rcases four_cases hk with rfl | rfl | rfl | rfl <;>
    simp only [Nat.reducePow, Nat.reduceMul, Nat.reduceSub] at h1 h2 h3 ⊢ <;>
    split <;> omega

theorem size_wide {fixed room next width count k : Nat} {s : Bytes} {m : Mach} {n : Nat} {r : Bytes} (hk : k < count)
    (hs : ∀ b ∈ s, b < 256) (h : getNumber m false (width * 2 ^ k) s = .ok (n, r)) :
    ∃ bs, s = bs ++ r ∧ Size fixed room next width count n ((next + k) :: bs) := by
  obtain ⟨bs, rfl, hl, rfl⟩ := getNumber_ok h
  exact ⟨bs, rfl, .wide hk hl fun b hb => hs b (List.mem_append_left _ hb)⟩

theorem msgString_sound {m : Mach} {ex : Bool} {c : Nat} {s t r : Bytes}
    (hs : ∀ b ∈ s, b < 256) (h : msgString m ex (some c) s = .ok (t, r)) :
    ∃ p, c :: s = p ++ (t ++ r) ∧ StrSize t.length p := by
  have key : ∀ k, k < 3 → c = 0xD9 + k →
      (getNumber m false (1 * 2 ^ k) s).bind (fun p => takeString m ex p.1 p.2) = .ok (t, r) →
      ∃ p, c :: s = p ++ (t ++ r) ∧ StrSize t.length p := by
    intro k hk hc h
    obtain ⟨⟨n, r1⟩, h1, h2⟩ := Rd.bind_ok_iff.1 h
    obtain ⟨bs, rfl, hh⟩ := size_wide hk hs h1
    obtain ⟨rfl, rfl⟩ := takeString_ok h2
    exact ⟨_, by rw [hc]; simp, hh⟩
  simp only [msgString] at h
  rcases ite_cases h with ⟨hc, h⟩ | ⟨_, h⟩
  · obtain ⟨rfl, hl⟩ := takeString_ok h
    refine ⟨[0xA0 + c % 32], by simp; omega, ?_⟩
    rw [hl]
    exact .small (by omega)
  rcases ite_cases h with ⟨hc, h⟩ | ⟨_, h⟩
  · exact key 0 (by omega) (by omega) h
  rcases ite_cases h with ⟨hc, h⟩ | ⟨_, h⟩
  · exact key 1 (by omega) (by omega) h
  rcases ite_cases h with ⟨hc, h⟩ | ⟨_, h⟩
  · exact key 2 (by omega) (by omega) h
  · cases h

mutual
theorem msgV_sound (m : Mach) (ex : Bool) : ∀ (fuel c : Nat) (s r : Bytes) (evs : List (Event Nat)),
    (∀ b ∈ s, b < 256) → msgV m ex fuel (some c) s = .ok (evs, r) →
    ∃ t v, c :: s = t ++ r ∧ Item t v ∧ evs = events v
  | 0, c, s, r, evs, _, h => by simp [msgV] at h
  | fuel + 1, c, s, r, evs, hs, h => by
    have num : ∀ (w : Nat) (f : Nat → Json Nat) (g : Nat → Event Nat),
        (∀ bs : Bytes, bs.length = w → (∀ b ∈ bs, b < 256) → Item (c :: bs) (f (big bs))) →
        (∀ n, events (f n) = [g n]) →
        (getNumber m false w s).bind (fun p => .ok ([g p.1], p.2)) = .ok (evs, r) →
        ∃ t v, c :: s = t ++ r ∧ Item t v ∧ evs = events v := by
      intro w f g hf hg h
      obtain ⟨⟨n, r1⟩, h1, h2⟩ := Rd.bind_ok_iff.1 h
      cases h2
      obtain ⟨bs, rfl, hl, rfl⟩ := getNumber_ok h1
      exact ⟨c :: bs, f (big bs), by simp, hf bs hl fun b hb => hs b (List.mem_append_left _ hb), (hg _).symm⟩
    have uint : ∀ k, k < 4 → c = 0xCC + k →
        (getNumber m false (2 ^ k) s).bind (fun p => .ok ([.uint p.1], p.2)) = .ok (evs, r) →
        ∃ t v, c :: s = t ++ r ∧ Item t v ∧ evs = events v := fun k hk hc h =>
      num (2 ^ k) .uint .uint (fun bs hl hb => by rw [hc]; exact .uint hk hl hb) (fun _ => rfl) h
    have int : ∀ k, k < 4 → c = 0xD0 + k →
        (getNumber m false (2 ^ k) s).bind (fun p => .ok ([.int (asSigned (2 ^ k) p.1)], p.2)) = .ok (evs, r) →
        ∃ t v, c :: s = t ++ r ∧ Item t v ∧ evs = events v := fun k hk hc h =>
      num (2 ^ k) (fun n => .int (asSigned (2 ^ k) n)) (fun n => .int (asSigned (2 ^ k) n))
        (fun bs hl hb => by
          have hlt := big_lt hb
          rw [hl] at hlt
          obtain ⟨h1, h2, h3⟩ := asSigned_spec hk hlt
          rw [hc]
          exact .int hk hl hb h1 h2 h3) (fun _ => rfl) h
    have arr : ∀ k, k < 2 → c = 0xDC + k →
        (getNumber m false (2 * 2 ^ k) s).bind (fun p => msgArr m ex fuel p.1 p.2) = .ok (evs, r) →
        ∃ t v, c :: s = t ++ r ∧ Item t v ∧ evs = events v := by
      intro k hk hc h
      obtain ⟨⟨n, r1⟩, h1, h2⟩ := Rd.bind_ok_iff.1 h
      obtain ⟨bs, rfl, hh⟩ := size_wide hk hs h1
      obtain ⟨t, vs, he, ht, rfl, rfl⟩ := msgArr_sound m ex fuel n r1 r evs
        (fun b hb => hs b (List.mem_append_right _ hb)) h2
      exact ⟨_, _, by rw [hc]; simp, .arr hh ht, he⟩
    have obj : ∀ k, k < 2 → c = 0xDE + k →
        (getNumber m false (2 * 2 ^ k) s).bind (fun p => msgObj m ex fuel p.1 p.2) = .ok (evs, r) →
        ∃ t v, c :: s = t ++ r ∧ Item t v ∧ evs = events v := by
      intro k hk hc h
      obtain ⟨⟨n, r1⟩, h1, h2⟩ := Rd.bind_ok_iff.1 h
      obtain ⟨bs, rfl, hh⟩ := size_wide hk hs h1
      obtain ⟨t, vs, he, ht, rfl, rfl⟩ := msgObj_sound m ex fuel n r1 r evs
        (fun b hb => hs b (List.mem_append_right _ hb)) h2
      exact ⟨_, _, by rw [hc]; simp, .obj hh ht, he⟩
    rw [msgV] at h
    rcases ite_cases h with ⟨hc, h⟩ | ⟨_, h⟩
    · cases h
      exact ⟨[c], .uint c, rfl, .fixUint (by omega), rfl⟩
    rcases ite_cases h with ⟨hc, h⟩ | ⟨_, h⟩
    · obtain ⟨t, ms, he, ht, rfl, hl⟩ := msgObj_sound m ex fuel (c % 16) s r evs hs h
      exact ⟨[0x80 + ms.length] ++ t, _, by simp; omega, .obj (.small (by omega)) ht, he⟩
    rcases ite_cases h with ⟨hc, h⟩ | ⟨_, h⟩
    · obtain ⟨t, vs, he, ht, rfl, hl⟩ := msgArr_sound m ex fuel (c % 16) s r evs hs h
      exact ⟨[0x90 + vs.length] ++ t, _, by simp; omega, .arr (.small (by omega)) ht, he⟩
    rcases ite_cases h with ⟨hc, h⟩ | ⟨_, h⟩
    · obtain ⟨⟨t, r1⟩, h1, h2⟩ := Rd.bind_ok_iff.1 h
      cases h2
      obtain ⟨p, e, hp⟩ := msgString_sound hs h1
      exact ⟨p ++ t, .str t, by rw [e]; simp, .str hp, rfl⟩
    rcases ite_cases h with ⟨hc, h⟩ | ⟨_, h⟩
    · cases h
      exact ⟨[c], _, rfl, by rw [hc]; exact .null, rfl⟩
    rcases ite_cases h with ⟨hc, h⟩ | ⟨_, h⟩
    · cases h
      exact ⟨[c], _, rfl, by rw [hc]; exact .false, rfl⟩
    rcases ite_cases h with ⟨hc, h⟩ | ⟨_, h⟩
    · cases h
      exact ⟨[c], _, rfl, by rw [hc]; exact .true, rfl⟩
    rcases ite_cases h with ⟨hc, h⟩ | ⟨_, h⟩
    · exact num 4 (fun n => .float (readSingle n)) (fun n => .float (readSingle n))
        (fun bs hl hb => by rw [hc]; exact .single hl hb) (fun _ => rfl) h
    rcases ite_cases h with ⟨hc, h⟩ | ⟨_, h⟩
    · exact num 8 .float .float (fun bs hl hb => by rw [hc]; exact .double hl hb) (fun _ => rfl) h
    rcases ite_cases h with ⟨hc, h⟩ | ⟨_, h⟩
    · exact uint 0 (by omega) (by omega) h
    rcases ite_cases h with ⟨hc, h⟩ | ⟨_, h⟩
    · exact uint 1 (by omega) (by omega) h
    rcases ite_cases h with ⟨hc, h⟩ | ⟨_, h⟩
    · exact uint 2 (by omega) (by omega) h
    rcases ite_cases h with ⟨hc, h⟩ | ⟨_, h⟩
    · exact uint 3 (by omega) (by omega) h
    rcases ite_cases h with ⟨hc, h⟩ | ⟨_, h⟩
    · exact int 0 (by omega) (by omega) h
    rcases ite_cases h with ⟨hc, h⟩ | ⟨_, h⟩
    · exact int 1 (by omega) (by omega) h
    rcases ite_cases h with ⟨hc, h⟩ | ⟨_, h⟩
    · exact int 2 (by omega) (by omega) h
    rcases ite_cases h with ⟨hc, h⟩ | ⟨_, h⟩
    · exact int 3 (by omega) (by omega) h
    rcases ite_cases h with ⟨hc, h⟩ | ⟨_, h⟩
    · exact arr 0 (by omega) (by omega) h
    rcases ite_cases h with ⟨hc, h⟩ | ⟨_, h⟩
    · exact arr 1 (by omega) (by omega) h
    rcases ite_cases h with ⟨hc, h⟩ | ⟨_, h⟩
    · exact obj 0 (by omega) (by omega) h
    rcases ite_cases h with ⟨hc, h⟩ | ⟨_, h⟩
    · exact obj 1 (by omega) (by omega) h
    rcases ite_cases h with ⟨hc, h⟩ | ⟨_, h⟩
    · cases h
      obtain ⟨h1, h2⟩ := hc
      obtain ⟨n, rfl⟩ := Nat.exists_eq_add_of_le h1
      refine ⟨[0xE0 + n], .int (n - 32), rfl, .fixInt (by omega), ?_⟩
      simp only [events, asSigned, List.cons.injEq, Event.int.injEq, and_true]
      rw [if_neg (by omega)]
      omega
    · cases h
theorem msgArr_sound (m : Mach) (ex : Bool) : ∀ (fuel len : Nat) (s r : Bytes) (evs : List (Event Nat)),
    (∀ b ∈ s, b < 256) → msgArr m ex fuel len s = .ok (evs, r) →
    ∃ t vs, evs = events (.arr vs) ∧ Items t vs ∧ s = t ++ r ∧ len = vs.length
  | 0, len, s, r, evs, _, h => by simp [msgArr] at h
  | fuel + 1, len, s, r, evs, hs, h => by
    rw [msgArr] at h
    rcases ite_cases h with ⟨_, h⟩ | ⟨_, h⟩
    · cases h
    · obtain ⟨⟨e1, r1⟩, h1, h2⟩ := Rd.bind_ok_iff.1 h
      cases h2
      obtain ⟨t, vs, rfl, ht, he, hl⟩ := msgElems_sound m ex fuel len s r1 e1 hs h1
      exact ⟨t, vs, by rw [he, events], ht, rfl, hl⟩
theorem msgElems_sound (m : Mach) (ex : Bool) : ∀ (fuel n : Nat) (s r : Bytes) (evs : List (Event Nat)),
    (∀ b ∈ s, b < 256) → msgElems m ex fuel n s = .ok (evs, r) →
    ∃ t vs, s = t ++ r ∧ Items t vs ∧ evs = eventsL vs ∧ n = vs.length
  | fuel, 0, s, r, evs, _, h => by
    have : msgElems m ex fuel 0 s = .ok ([], s) := by cases fuel <;> simp [msgElems]
    rw [this] at h
    cases h
    exact ⟨[], [], rfl, .nil, rfl, rfl⟩
  | fuel, _ + 1, [], r, evs, _, h => by cases fuel <;> simp [msgElems] at h
  | 0, _ + 1, _ :: _, r, evs, _, h => by simp [msgElems] at h
  | fuel + 1, n + 1, c :: s, r, evs, hs, h => by
    rw [msgElems] at h
    obtain ⟨⟨e1, r1⟩, h1, h2⟩ := Rd.bind_ok_iff.1 h
    obtain ⟨⟨e2, r2⟩, h3, h4⟩ := Rd.bind_ok_iff.1 h2
    cases h4
    obtain ⟨t, v, e, ht, rfl⟩ := msgV_sound m ex fuel c s r1 e1 (fun b hb => hs b (List.mem_cons_of_mem _ hb)) h1
    have hs1 : ∀ b ∈ r1, b < 256 := fun b hb => hs b (by rw [e]; exact List.mem_append_right _ hb)
    obtain ⟨t', vs, rfl, ht', rfl, rfl⟩ := msgElems_sound m ex fuel n r1 r2 e2 hs1 h3
    exact ⟨t ++ t', v :: vs, by rw [e]; simp, .cons ht ht', rfl, rfl⟩
theorem msgObj_sound (m : Mach) (ex : Bool) : ∀ (fuel len : Nat) (s r : Bytes) (evs : List (Event Nat)),
    (∀ b ∈ s, b < 256) → msgObj m ex fuel len s = .ok (evs, r) →
    ∃ t ms, evs = events (.obj ms) ∧ Pairs t ms ∧ s = t ++ r ∧ len = ms.length
  | 0, len, s, r, evs, _, h => by simp [msgObj] at h
  | fuel + 1, len, s, r, evs, hs, h => by
    rw [msgObj] at h
    rcases ite_cases h with ⟨_, h⟩ | ⟨_, h⟩
    · cases h
    · obtain ⟨⟨e1, r1⟩, h1, h2⟩ := Rd.bind_ok_iff.1 h
      cases h2
      obtain ⟨t, ms, rfl, ht, he, hl⟩ := msgMembers_sound m ex fuel len s r1 e1 hs h1
      exact ⟨t, ms, by rw [he, events], ht, rfl, hl⟩
theorem msgMembers_sound (m : Mach) (ex : Bool) : ∀ (fuel n : Nat) (s r : Bytes) (evs : List (Event Nat)),
    (∀ b ∈ s, b < 256) → msgMembers m ex fuel n s = .ok (evs, r) →
    ∃ t ms, s = t ++ r ∧ Pairs t ms ∧ evs = eventsM ms ∧ n = ms.length
  | fuel, 0, s, r, evs, _, h => by
    have : msgMembers m ex fuel 0 s = .ok ([], s) := by cases fuel <;> simp [msgMembers]
    rw [this] at h
    cases h
    exact ⟨[], [], rfl, .nil, rfl, rfl⟩
  | fuel, _ + 1, [], r, evs, _, h => by cases fuel <;> simp [msgMembers] at h
  | 0, _ + 1, _ :: _, r, evs, _, h => by simp [msgMembers] at h
  | fuel + 1, n + 1, c :: s, r, evs, hs, h => by
    rw [msgMembers] at h
    obtain ⟨⟨k, r0⟩, h0, h2⟩ := Rd.bind_ok_iff.1 h
    obtain ⟨⟨e1, r1⟩, h1, h2⟩ := Rd.bind_ok_iff.1 h2
    obtain ⟨⟨e2, r2⟩, h3, h4⟩ := Rd.bind_ok_iff.1 h2
    cases h4
    obtain ⟨p, e0, hp⟩ := msgString_sound (fun b hb => hs b (List.mem_cons_of_mem _ hb)) h0
    have hs0 : ∀ b ∈ r0, b < 256 := fun b hb => hs b (by
      rw [e0]; exact List.mem_append_right _ (List.mem_append_right _ hb))
    match r0, hs0, h1, e0 with
    | [], _, h1, _ => cases fuel <;> simp [msgV] at h1
    | d :: r0, hs0, h1, e0 =>
      obtain ⟨t, v, e, ht, rfl⟩ := msgV_sound m ex fuel d r0 r1 e1 (fun b hb => hs0 b (List.mem_cons_of_mem _ hb)) h1
      have hs1 : ∀ b ∈ r1, b < 256 := fun b hb => hs0 b (by rw [e]; exact List.mem_append_right _ hb)
      obtain ⟨t', ms, rfl, ht', rfl, rfl⟩ := msgMembers_sound m ex fuel n r1 r2 e2 hs1 h3
      refine ⟨p ++ (k ++ (t ++ t')), (k, v) :: ms, ?_, .cons hp ht ht', ?_, rfl⟩
      · rw [e0, e]; simp
      · simp [eventsM]
end

end Verif.Json
