import Verif.Json.CborModel
import Verif.Json.DomLemmas
import Verif.Json.Props

/-!
# CBOR, as RFC 7049 defines it, and the reader of the code
-/

namespace Verif.Json

namespace Spec

/-- the number whose bytes are given, the highest first (network byte order) -/
def big : Bytes → Nat
  | [] => 0
  | b :: bs => b * 256 ^ bs.length + big bs

namespace Cbor

/-- the beginning of an item (RFC 7049, section 2.1): the major type, the argument, and the bytes.  An argument below
24 stands in the first byte; otherwise 1, 2, 4 or 8 bytes follow it. -/
inductive Head : Nat → Nat → Bytes → Prop
  | tiny {major n : Nat} : n < 24 → Head major n [32 * major + n]
  | more {major k : Nat} {bs : Bytes} : k < 4 → bs.length = 2 ^ k → (∀ b ∈ bs, b < 256) →
      Head major (big bs) ((32 * major + 24 + k) :: bs)

mutual
/-- a text string (major type 3): its bytes, and the characters in UTF-8.  `lax`: also what the RFC forbids, that is
text that is not UTF-8, and pieces that are themselves in pieces. -/
inductive Text (lax : Bool) : Bytes → Bytes → Prop
  | whole {t s : Bytes} : Head 3 s.length t → (lax = true ∨ Utf8 s) → Text lax (t ++ s) s
  | pieces {ts s : Bytes} : Pieces lax ts s → Text lax (0x7F :: (ts ++ [0xFF])) s
/-- the pieces of a string of indefinite length (section 2.2.2) -/
inductive Pieces (lax : Bool) : Bytes → Bytes → Prop
  | nil : Pieces lax [] []
  | cons {t s ts s' : Bytes} : Text lax t s → (lax = true ∨ t.head? ≠ some 0x7F) → Pieces lax ts s' →
      Pieces lax (t ++ ts) (s ++ s')
end

mutual
/-- the items that have a counterpart in JSON, and their value, with the members of maps in the order of the text,
repeated names included.  `lax`: also with the meanings that the RFC does not give: a negative number
below -2^63 is read as 2^64 more, and a length of 2^64-1 as that of a list closed by a mark. -/
inductive Item (lax : Bool) : Bytes → Json Nat → Prop
  | uint {n : Nat} {t : Bytes} : Head 0 n t → Item lax t (.uint n)
  | neg {n : Nat} {t : Bytes} : Head 1 n t → n < 2 ^ 63 → Item lax t (.int (-1 - n))
  | str {t s : Bytes} : Text lax t s → Item lax t (.str s)
  | arr {t ts : Bytes} {vs : List (Json Nat)} : Head 4 vs.length t → Items lax ts vs →
      Item lax (t ++ ts) (.arr vs)
  | arrMarked {ts : Bytes} {vs : List (Json Nat)} : Items lax ts vs →
      Item lax (0x9F :: (ts ++ [0xFF])) (.arr vs)
  | obj {t ts : Bytes} {ms : List (Bytes × Json Nat)} : Head 5 ms.length t → Pairs lax ts ms →
      Item lax (t ++ ts) (.obj ms)
  | objMarked {ts : Bytes} {ms : List (Bytes × Json Nat)} : Pairs lax ts ms →
      Item lax (0xBF :: (ts ++ [0xFF])) (.obj ms)
  | false : Item lax [0xF4] (.bool false)
  | true : Item lax [0xF5] (.bool true)
  | null : Item lax [0xF6] .null
  | half {a b : Nat} : a < 256 → b < 256 → Item lax [0xF9, a, b] (.float (readHalf (256 * a + b)))
  | single {bs : Bytes} : bs.length = 4 → (∀ b ∈ bs, b < 256) →
      Item lax (0xFA :: bs) (.float (readSingle (big bs)))
  | double {bs : Bytes} : bs.length = 8 → (∀ b ∈ bs, b < 256) → Item lax (0xFB :: bs) (.float (big bs))
  | laxNeg {n : Nat} {t : Bytes} : lax = Bool.true → Head 1 n t → 2 ^ 63 ≤ n →
      Item lax t (.int (2 ^ 64 - 1 - n))
  | laxArr {t ts : Bytes} {vs : List (Json Nat)} : lax = Bool.true → Head 4 (2 ^ 64 - 1) t → Items lax ts vs →
      Item lax (t ++ (ts ++ [0xFF])) (.arr vs)
  | laxObj {t ts : Bytes} {ms : List (Bytes × Json Nat)} : lax = Bool.true → Head 5 (2 ^ 64 - 1) t → Pairs lax ts ms →
      Item lax (t ++ (ts ++ [0xFF])) (.obj ms)
/-- items one after the other -/
inductive Items (lax : Bool) : Bytes → List (Json Nat) → Prop
  | nil : Items lax [] []
  | cons {t ts : Bytes} {v : Json Nat} {vs : List (Json Nat)} : Item lax t v → Items lax ts vs →
      Items lax (t ++ ts) (v :: vs)
/-- names and values one after the other -/
inductive Pairs (lax : Bool) : Bytes → List (Bytes × Json Nat) → Prop
  | nil : Pairs lax [] []
  | cons {k s t ts : Bytes} {v : Json Nat} {ms : List (Bytes × Json Nat)} : Text lax k s → Item lax t v →
      Pairs lax ts ms → Pairs lax (k ++ (t ++ ts)) ((s, v) :: ms)
end

end Cbor
end Spec

open Spec Spec.Cbor

/-! ## Numbers -/

theorem big_append (as bs : Bytes) : big (as ++ bs) = big as * 256 ^ bs.length + big bs := by
  induction as with
  | nil => simp [big]
  | cons a as ih =>
    rw [List.cons_append, big, ih, big, List.length_append, Nat.pow_add, Nat.add_mul, Nat.mul_assoc]
    omega

theorem big_lt : ∀ {bs : Bytes}, (∀ b ∈ bs, b < 256) → big bs < 256 ^ bs.length
  | [], _ => by simp [big]
  | b :: bs, h => by
    have ih := big_lt (bs := bs) fun x hx => h x (List.mem_cons_of_mem _ hx)
    have hb := h b List.mem_cons_self
    rw [big, List.length_cons, Nat.pow_succ, Nat.mul_comm (256 ^ bs.length) 256]
    calc b * 256 ^ bs.length + big bs < b * 256 ^ bs.length + 256 ^ bs.length := by omega
      _ = (b + 1) * 256 ^ bs.length := by rw [Nat.add_mul, Nat.one_mul]
      _ ≤ 256 * 256 ^ bs.length := Nat.mul_le_mul_right _ (by omega)

theorem foldl_big (bs : Bytes) : ∀ n, bs.foldl (fun n b => 256 * n + b) n = n * 256 ^ bs.length + big bs := by
  induction bs with
  | nil => intro n; simp [big]
  | cons b bs ih =>
    intro n
    rw [List.foldl_cons, ih, big, List.length_cons, Nat.pow_succ, Nat.add_mul]
    have : 256 * n * 256 ^ bs.length = n * (256 ^ bs.length * 256) := by
      rw [Nat.mul_comm 256 n, Nat.mul_assoc, Nat.mul_comm 256]
    omega

theorem memValue_eq (little : Bool) (bs : Bytes) :
    memValue little (if little ≠ false then bs.reverse else bs) = big bs := by
  cases little with
  | false => simp [memValue, foldl_big]
  | true =>
    simp only [memValue, if_true, ne_eq, Bool.true_eq_false, not_false_eq_true, List.foldr_reverse]
    have := foldl_big bs 0
    simp only [Nat.zero_mul, Nat.zero_add] at this
    rw [← this]
    congr 1
    funext n b
    omega

theorem getNumber_append (m : Mach) {bs : Bytes} {w : Nat} (hw : bs.length = w) (s : Bytes) :
    getNumber m false w (bs ++ s) = .ok (big bs, s) := by
  subst hw
  rw [getNumber, if_pos (by simp), List.take_left, List.drop_left, memValue_eq]

theorem getNumber_ok {m : Mach} {w n : Nat} {s r : Bytes} (h : getNumber m false w s = .ok (n, r)) :
    ∃ bs, s = bs ++ r ∧ bs.length = w ∧ n = big bs := by
  rw [getNumber] at h
  by_cases hw : w ≤ s.length
  · rw [if_pos hw, memValue_eq] at h
    cases h
    exact ⟨s.take w, (List.take_append_drop w s).symm, by simp [hw], rfl⟩
  · rw [if_neg hw] at h; cases h

theorem getNumber_short {m : Mach} {w : Nat} {s : Bytes} (h : s.length < w) :
    getNumber m false w s = .fail 110 := by rw [getNumber, if_neg (by omega)]

theorem getNumber_cases (m : Mach) (w : Nat) (s : Bytes) :
    (∃ bs r, s = bs ++ r ∧ bs.length = w ∧ getNumber m false w s = .ok (big bs, r)) ∨
      getNumber m false w s = .fail 110 := by
  by_cases hw : w ≤ s.length
  · refine .inl ⟨s.take w, s.drop w, (List.take_append_drop w s).symm, by simp [hw], ?_⟩
    rw [getNumber, if_pos hw, memValue_eq]
  · exact .inr (getNumber_short (by omega))

theorem takeString_ok {m : Mach} {ex : Bool} {len : Nat} {s t r : Bytes}
    (h : takeString m ex len s = .ok (t, r)) : s = t ++ r ∧ t.length = len := by
  rw [takeString] at h
  by_cases hl : len ≤ s.length
  · rw [if_pos hl] at h
    by_cases hm : len ≤ m.maxStr
    · rw [if_pos hm] at h
      cases h
      exact ⟨(List.take_append_drop len s).symm, by simp [hl]⟩
    · rw [if_neg hm] at h; cases h
  · rw [if_neg hl] at h
    split at h
    · cases h
    · split at h <;> cases h

theorem takeString_append (m : Mach) (ex : Bool) {t : Bytes} {len : Nat} (hl : t.length = len)
    (hm : len ≤ m.maxStr) (s : Bytes) : takeString m ex len (t ++ s) = .ok (t, s) := by
  subst hl
  rw [takeString, if_pos (by simp), if_pos hm, List.take_left, List.drop_left]

theorem Rd.bind_ok_iff {x : Rd α} {f : α → Rd β} {b : β} :
    x.bind f = .ok b ↔ ∃ a, x = .ok a ∧ f a = .ok b := by
  cases x <;> simp [Rd.bind]

@[simp] theorem Rd.ok_bind (a : α) (f : α → Rd β) : (Rd.ok a).bind f = f a := rfl
@[simp] theorem Rd.fail_bind (id : Nat) (f : α → Rd β) : (Rd.fail id).bind f = .fail id := rfl
@[simp] theorem Rd.threw_bind (k : String) (f : α → Rd β) : (Rd.threw k).bind f = .threw k := rfl
@[simp] theorem Rd.running_bind (f : α → Rd β) : (Rd.running).bind f = .running := rfl

/-! ## What is read is an item -/

theorem head_more {major k : Nat} {s : Bytes} {m : Mach} {n : Nat} {r : Bytes} (hk : k < 4)
    (hs : ∀ b ∈ s, b < 256) (h : getNumber m false (2 ^ k) s = .ok (n, r)) :
    ∃ bs, s = bs ++ r ∧ Head major n ((32 * major + 24 + k) :: bs) := by
  obtain ⟨bs, rfl, hl, rfl⟩ := getNumber_ok h
  exact ⟨bs, rfl, .more hk hl fun b hb => hs b (List.mem_append_left _ hb)⟩

mutual
theorem cborString_sound (m : Mach) (ex : Bool) : ∀ (fuel : Nat) (c : Nat) (s t r : Bytes),
    (∀ b ∈ s, b < 256) → cborString m ex fuel (some c) s = .ok (t, r) →
    ∃ p, c :: s = p ++ r ∧ Text true p t
  | 0, c, s, t, r, _, h => by simp [cborString] at h
  | fuel + 1, c, s, t, r, hs, h => by
    have key : ∀ k, k < 4 → c = 32 * 3 + 24 + k →
        (getNumber m false (2 ^ k) s).bind (fun p => takeString m ex p.1 p.2) = .ok (t, r) →
        ∃ p, c :: s = p ++ r ∧ Text true p t := by
      intro k hk hc h
      obtain ⟨⟨n, r1⟩, h1, h2⟩ := Rd.bind_ok_iff.1 h
      obtain ⟨bs, rfl, hh⟩ := head_more (major := 3) hk hs h1
      obtain ⟨rfl, rfl⟩ := takeString_ok h2
      exact ⟨_, by rw [hc]; simp, .whole hh (.inl rfl)⟩
    rw [cborString] at h
    split at h
    · obtain ⟨rfl, hl⟩ := takeString_ok h
      refine ⟨[32 * 3 + c % 32] ++ t, by simp; omega, .whole ?_ (.inl rfl)⟩
      rw [hl]
      exact .tiny (by omega)
    split at h
    · exact key 0 (by omega) (by omega) h
    split at h
    · exact key 1 (by omega) (by omega) h
    split at h
    · exact key 2 (by omega) (by omega) h
    split at h
    · exact key 3 (by omega) (by omega) h
    split at h
    · rename_i hc
      subst hc
      obtain ⟨p, rfl, hp⟩ := cborChunks_sound m ex fuel s t r hs h
      exact ⟨_, by simp, .pieces hp⟩
    · cases h
theorem cborChunks_sound (m : Mach) (ex : Bool) : ∀ (fuel : Nat) (s t r : Bytes),
    (∀ b ∈ s, b < 256) → cborChunks m ex fuel s = .ok (t, r) →
    ∃ p, s = p ++ 0xFF :: r ∧ Pieces true p t
  | _, [], t, r, _, h => by simp [cborChunks] at h
  | 0, _ :: _, t, r, _, h => by simp [cborChunks] at h
  | fuel + 1, c :: s, t, r, hs, h => by
    rw [cborChunks] at h
    split at h
    · rename_i hc
      cases h
      exact ⟨[], by simp [hc], .nil⟩
    · obtain ⟨⟨t1, r1⟩, h1, h2⟩ := Rd.bind_ok_iff.1 h
      obtain ⟨⟨t2, r2⟩, h3, h4⟩ := Rd.bind_ok_iff.1 h2
      cases h4
      obtain ⟨p, e, hp⟩ := cborString_sound m ex fuel c s t1 r1 (fun b hb => hs b (List.mem_cons_of_mem _ hb)) h1
      have hs1 : ∀ b ∈ r1, b < 256 := fun b hb => hs b (by rw [e]; exact List.mem_append_right _ hb)
      obtain ⟨q, rfl, hq⟩ := cborChunks_sound m ex fuel r1 t2 r2 hs1 h3
      exact ⟨p ++ q, by rw [e]; simp, .cons hp (.inl rfl) hq⟩
end

theorem ite_cases {p : Prop} [Decidable p] {a b x : α} (h : (if p then a else b) = x) :
    (p ∧ a = x) ∨ (¬ p ∧ b = x) := by
  by_cases hp : p
  · rw [if_pos hp] at h; exact .inl ⟨hp, h⟩
  · rw [if_neg hp] at h; exact .inr ⟨hp, h⟩

theorem toSigned_big {n : Nat} (h : n < 2 ^ 64) :
    (n < 2 ^ 63 ∧ -1 - toSigned n = -1 - (n : Int)) ∨ (2 ^ 63 ≤ n ∧ -1 - toSigned n = 2 ^ 64 - 1 - (n : Int)) := by
  rw [toSigned, Nat.mod_eq_of_lt h]
  by_cases h' : n < 2 ^ 63
  · exact .inl ⟨h', by rw [if_pos h']⟩
  · exact .inr ⟨by omega, by rw [if_neg h']; omega⟩

mutual
theorem cborV_sound (m : Mach) (ex : Bool) : ∀ (fuel c : Nat) (s r : Bytes) (evs : List (Event Nat)),
    (∀ b ∈ s, b < 256) → cborV m ex fuel (some c) s = .ok (evs, r) →
    ∃ t v, c :: s = t ++ r ∧ Item true t v ∧ evs = events v
  | 0, c, s, r, evs, _, h => by simp [cborV] at h
  | fuel + 1, c, s, r, evs, hs, h => by
    have num : ∀ (major k : Nat), k < 4 → c = 32 * major + 24 + k → ∀ (f : Nat → Json Nat) (g : Nat → Event Nat),
        (∀ n, n < 256 ^ 2 ^ k → ∀ t, Head major n t → Item true t (f n)) → (∀ n, n < 256 ^ 2 ^ k → events (f n) = [g n]) →
        (getNumber m false (2 ^ k) s).bind (fun p => .ok ([g p.1], p.2)) = .ok (evs, r) →
        ∃ t v, c :: s = t ++ r ∧ Item true t v ∧ evs = events v := by
      intro major k hk hc f g hf hg h
      obtain ⟨⟨n, r1⟩, h1, h2⟩ := Rd.bind_ok_iff.1 h
      cases h2
      obtain ⟨bs, rfl, hl, rfl⟩ := getNumber_ok h1
      have hb : ∀ b ∈ bs, b < 256 := fun b hb => hs b (List.mem_append_left _ hb)
      have hlt := big_lt hb
      rw [hl] at hlt
      exact ⟨c :: bs, f (big bs), by simp, hf _ hlt _ (by rw [hc]; exact .more hk hl hb), (hg _ hlt).symm⟩
    have arr : ∀ k, k < 4 → c = 32 * 4 + 24 + k →
        (getNumber m false (2 ^ k) s).bind (fun p => cborArr m ex fuel p.1 p.2) = .ok (evs, r) →
        ∃ t v, c :: s = t ++ r ∧ Item true t v ∧ evs = events v := by
      intro k hk hc h
      obtain ⟨⟨n, r1⟩, h1, h2⟩ := Rd.bind_ok_iff.1 h
      obtain ⟨bs, rfl, hh⟩ := head_more (major := 4) hk hs h1
      obtain ⟨t, vs, he, ht, h3⟩ := cborArr_sound m ex fuel n r1 r evs
        (fun b hb => hs b (List.mem_append_right _ hb)) h2
      rcases h3 with ⟨_, rfl, hl⟩ | ⟨hl, rfl⟩
      · subst hl
        exact ⟨_, _, by rw [hc]; simp, .arr hh ht, he⟩
      · subst hl
        exact ⟨_, _, by rw [hc]; simp, .laxArr rfl hh ht, he⟩
    have obj : ∀ k, k < 4 → c = 32 * 5 + 24 + k →
        (getNumber m false (2 ^ k) s).bind (fun p => cborObj m ex fuel p.1 p.2) = .ok (evs, r) →
        ∃ t v, c :: s = t ++ r ∧ Item true t v ∧ evs = events v := by
      intro k hk hc h
      obtain ⟨⟨n, r1⟩, h1, h2⟩ := Rd.bind_ok_iff.1 h
      obtain ⟨bs, rfl, hh⟩ := head_more (major := 5) hk hs h1
      obtain ⟨t, vs, he, ht, h3⟩ := cborObj_sound m ex fuel n r1 r evs
        (fun b hb => hs b (List.mem_append_right _ hb)) h2
      rcases h3 with ⟨_, rfl, hl⟩ | ⟨hl, rfl⟩
      · subst hl
        exact ⟨_, _, by rw [hc]; simp, .obj hh ht, he⟩
      · subst hl
        exact ⟨_, _, by rw [hc]; simp, .laxObj rfl hh ht, he⟩
    have uint : ∀ k, k < 4 → c = 32 * 0 + 24 + k →
        (getNumber m false (2 ^ k) s).bind (fun p => .ok ([.uint p.1], p.2)) = .ok (evs, r) →
        ∃ t v, c :: s = t ++ r ∧ Item true t v ∧ evs = events v := fun k hk hc h =>
      num 0 k hk hc (fun n => .uint n) (fun n => .uint n) (fun n _ t h => .uint h) (fun n _ => rfl) h
    have neg : ∀ k, k < 3 → c = 32 * 1 + 24 + k →
        (getNumber m false (2 ^ k) s).bind (fun p => .ok ([.int (-1 - p.1)], p.2)) = .ok (evs, r) →
        ∃ t v, c :: s = t ++ r ∧ Item true t v ∧ evs = events v := fun k hk hc h => by
      refine num 1 k (by omega) hc (fun n => .int (-1 - n)) (fun n => .int (-1 - n)) (fun n hn t h => .neg h ?_)
        (fun n _ => rfl) h
      have : k = 0 ∨ k = 1 ∨ k = 2 := by omega
      rcases this with rfl | rfl | rfl <;> omega
    rw [cborV] at h
    rcases ite_cases h with ⟨hc, h⟩ | ⟨_, h⟩
    · cases h
      refine ⟨[c], .uint c, rfl, .uint ?_, rfl⟩
      have := Head.tiny (major := 0) (n := c) (by omega)
      simpa using this
    rcases ite_cases h with ⟨hc, h⟩ | ⟨_, h⟩
    · exact uint 0 (by omega) (by omega) h
    rcases ite_cases h with ⟨hc, h⟩ | ⟨_, h⟩
    · exact uint 1 (by omega) (by omega) h
    rcases ite_cases h with ⟨hc, h⟩ | ⟨_, h⟩
    · exact uint 2 (by omega) (by omega) h
    rcases ite_cases h with ⟨hc, h⟩ | ⟨_, h⟩
    · exact uint 3 (by omega) (by omega) h
    rcases ite_cases h with ⟨hc, h⟩ | ⟨_, h⟩
    · cases h
      obtain ⟨h1, h2⟩ := hc
      obtain ⟨n, rfl⟩ := Nat.exists_eq_add_of_le h1
      refine ⟨[0x20 + n], .int (-1 - n), rfl, .neg (Head.tiny (major := 1) (by omega)) (by omega), ?_⟩
      simp only [events, List.cons.injEq, Event.int.injEq, and_true]
      omega
    rcases ite_cases h with ⟨hc, h⟩ | ⟨_, h⟩
    · exact neg 0 (by omega) (by omega) h
    rcases ite_cases h with ⟨hc, h⟩ | ⟨_, h⟩
    · exact neg 1 (by omega) (by omega) h
    rcases ite_cases h with ⟨hc, h⟩ | ⟨_, h⟩
    · exact neg 2 (by omega) (by omega) h
    rcases ite_cases h with ⟨hc, h⟩ | ⟨_, h⟩
    · refine num 1 3 (by omega) (by omega) (fun n => .int (-1 - toSigned n)) (fun n => .int (-1 - toSigned n))
        (fun n hn t h => ?_) (fun n _ => rfl) h
      rcases toSigned_big (n := n) (by omega) with ⟨h1, h2⟩ | ⟨h1, h2⟩
      · rw [h2]; exact .neg h h1
      · rw [h2]; exact .laxNeg rfl h h1
    rcases ite_cases h with ⟨hc, h⟩ | ⟨_, h⟩
    · obtain ⟨⟨t, r1⟩, h1, h2⟩ := Rd.bind_ok_iff.1 h
      cases h2
      obtain ⟨p, e, hp⟩ := cborString_sound m ex _ c s t r1 hs h1
      exact ⟨p, .str t, e, .str hp, rfl⟩
    rcases ite_cases h with ⟨hc, h⟩ | ⟨_, h⟩
    · obtain ⟨t, vs, he, ht, h3⟩ := cborArr_sound m ex fuel (c % 32) s r evs hs h
      rcases h3 with ⟨_, rfl, hl⟩ | ⟨hl, _⟩
      · refine ⟨[32 * 4 + vs.length] ++ t, _, by simp; omega, .arr (.tiny (by omega)) ht, he⟩
      · rw [noSize] at hl; omega
    rcases ite_cases h with ⟨hc, h⟩ | ⟨_, h⟩
    · exact arr 0 (by omega) (by omega) h
    rcases ite_cases h with ⟨hc, h⟩ | ⟨_, h⟩
    · exact arr 1 (by omega) (by omega) h
    rcases ite_cases h with ⟨hc, h⟩ | ⟨_, h⟩
    · exact arr 2 (by omega) (by omega) h
    rcases ite_cases h with ⟨hc, h⟩ | ⟨_, h⟩
    · exact arr 3 (by omega) (by omega) h
    rcases ite_cases h with ⟨hc, h⟩ | ⟨_, h⟩
    · obtain ⟨t, vs, he, ht, h3⟩ := cborArr_sound m ex fuel noSize s r evs hs h
      rcases h3 with ⟨h3, _⟩ | ⟨_, rfl⟩
      · exact absurd rfl h3
      · subst hc
        exact ⟨_, _, by simp, .arrMarked ht, he⟩
    rcases ite_cases h with ⟨hc, h⟩ | ⟨_, h⟩
    · obtain ⟨t, vs, he, ht, h3⟩ := cborObj_sound m ex fuel (c % 32) s r evs hs h
      rcases h3 with ⟨_, rfl, hl⟩ | ⟨hl, _⟩
      · refine ⟨[32 * 5 + vs.length] ++ t, _, by simp; omega, .obj (.tiny (by omega)) ht, he⟩
      · rw [noSize] at hl; omega
    rcases ite_cases h with ⟨hc, h⟩ | ⟨_, h⟩
    · exact obj 0 (by omega) (by omega) h
    rcases ite_cases h with ⟨hc, h⟩ | ⟨_, h⟩
    · exact obj 1 (by omega) (by omega) h
    rcases ite_cases h with ⟨hc, h⟩ | ⟨_, h⟩
    · exact obj 2 (by omega) (by omega) h
    rcases ite_cases h with ⟨hc, h⟩ | ⟨_, h⟩
    · exact obj 3 (by omega) (by omega) h
    rcases ite_cases h with ⟨hc, h⟩ | ⟨_, h⟩
    · obtain ⟨t, vs, he, ht, h3⟩ := cborObj_sound m ex fuel noSize s r evs hs h
      rcases h3 with ⟨h3, _⟩ | ⟨_, rfl⟩
      · exact absurd rfl h3
      · subst hc
        exact ⟨_, _, by simp, .objMarked ht, he⟩
    rcases ite_cases h with ⟨hc, h⟩ | ⟨_, h⟩
    · cases h
      exact ⟨[c], _, rfl, by rw [hc]; exact .false, rfl⟩
    rcases ite_cases h with ⟨hc, h⟩ | ⟨_, h⟩
    · cases h
      exact ⟨[c], _, rfl, by rw [hc]; exact .true, rfl⟩
    rcases ite_cases h with ⟨hc, h⟩ | ⟨_, h⟩
    · cases h
      exact ⟨[c], _, rfl, by rw [hc]; exact .null, rfl⟩
    rcases ite_cases h with ⟨hc, h⟩ | ⟨_, h⟩
    · match s, hs, h with
      | [], _, h => simp [getHalf] at h
      | [_], _, h => simp [getHalf] at h
      | a :: b :: s, hs, h =>
        cases h
        refine ⟨[c, a, b], .float (readHalf (256 * a + b)), rfl, ?_, ?_⟩
        · rw [hc]
          exact .half (hs a (by simp)) (hs b (by simp))
        · rw [events, show a * 2 ^ 8 + b = 256 * a + b by omega]
    rcases ite_cases h with ⟨hc, h⟩ | ⟨_, h⟩
    · obtain ⟨⟨n, r1⟩, h1, h2⟩ := Rd.bind_ok_iff.1 h
      cases h2
      obtain ⟨bs, rfl, hl, rfl⟩ := getNumber_ok h1
      exact ⟨c :: bs, .float (readSingle (big bs)), by simp,
        by rw [hc]; exact .single hl fun b hb => hs b (List.mem_append_left _ hb), rfl⟩
    rcases ite_cases h with ⟨hc, h⟩ | ⟨_, h⟩
    · obtain ⟨⟨n, r1⟩, h1, h2⟩ := Rd.bind_ok_iff.1 h
      cases h2
      obtain ⟨bs, rfl, hl, rfl⟩ := getNumber_ok h1
      exact ⟨c :: bs, .float (big bs), by simp,
        by rw [hc]; exact .double hl fun b hb => hs b (List.mem_append_left _ hb), rfl⟩
    · cases h
theorem cborArr_sound (m : Mach) (ex : Bool) : ∀ (fuel len : Nat) (s r : Bytes) (evs : List (Event Nat)),
    (∀ b ∈ s, b < 256) → cborArr m ex fuel len s = .ok (evs, r) →
    ∃ t vs, evs = events (.arr vs) ∧ Items true t vs ∧
      ((len ≠ noSize ∧ s = t ++ r ∧ vs.length = len) ∨ (len = noSize ∧ s = t ++ 0xFF :: r))
  | 0, len, s, r, evs, _, h => by simp [cborArr] at h
  | fuel + 1, len, s, r, evs, hs, h => by
    rw [cborArr] at h
    split at h
    · rename_i hn
      split at h
      · cases h
      · obtain ⟨⟨e1, r1⟩, h1, h2⟩ := Rd.bind_ok_iff.1 h
        cases h2
        obtain ⟨t, vs, e, ht, hl, he⟩ := cborElems_sound m ex fuel len s r1 e1 hs h1
        exact ⟨t, vs, by rw [events, he], ht, .inl ⟨hn, e, hl⟩⟩
    · rename_i hn
      obtain ⟨⟨e1, r1⟩, h1, h2⟩ := Rd.bind_ok_iff.1 h
      cases h2
      obtain ⟨t, vs, e, ht, he⟩ := cborElemsUntil_sound m ex fuel s r1 e1 hs h1
      exact ⟨t, vs, by rw [events, he], ht, .inr ⟨by simpa using hn, e⟩⟩
theorem cborElems_sound (m : Mach) (ex : Bool) : ∀ (fuel n : Nat) (s r : Bytes) (evs : List (Event Nat)),
    (∀ b ∈ s, b < 256) → cborElems m ex fuel n s = .ok (evs, r) →
    ∃ t vs, s = t ++ r ∧ Items true t vs ∧ vs.length = n ∧ evs = eventsL vs
  | fuel, 0, s, r, evs, _, h => by
    cases fuel <;> (simp only [cborElems, Rd.ok.injEq, Prod.mk.injEq] at h; obtain ⟨rfl, rfl⟩ := h; exact ⟨[], [], rfl, .nil, rfl, rfl⟩)
  | fuel, _ + 1, [], r, evs, _, h => by cases fuel <;> simp [cborElems] at h
  | 0, _ + 1, _ :: _, r, evs, _, h => by simp [cborElems] at h
  | fuel + 1, n + 1, c :: s, r, evs, hs, h => by
    rw [cborElems] at h
    obtain ⟨⟨e1, r1⟩, h1, h2⟩ := Rd.bind_ok_iff.1 h
    obtain ⟨⟨e2, r2⟩, h3, h4⟩ := Rd.bind_ok_iff.1 h2
    cases h4
    obtain ⟨t, v, e, ht, he⟩ := cborV_sound m ex fuel c s r1 e1 (fun b hb => hs b (List.mem_cons_of_mem _ hb)) h1
    obtain ⟨t', vs, rfl, ht', hl, he'⟩ := cborElems_sound m ex fuel n r1 r2 e2
      (fun b hb => hs b (by rw [e]; exact List.mem_append_right _ hb)) h3
    exact ⟨t ++ t', v :: vs, by rw [e]; simp, .cons ht ht', by simp [hl], by rw [eventsL, he, he']⟩
theorem cborElemsUntil_sound (m : Mach) (ex : Bool) : ∀ (fuel : Nat) (s r : Bytes) (evs : List (Event Nat)),
    (∀ b ∈ s, b < 256) → cborElemsUntil m ex fuel s = .ok (evs, r) →
    ∃ t vs, s = t ++ 0xFF :: r ∧ Items true t vs ∧ evs = eventsL vs
  | fuel, [], r, evs, _, h => by cases fuel <;> simp [cborElemsUntil] at h
  | 0, _ :: _, r, evs, _, h => by simp [cborElemsUntil] at h
  | fuel + 1, c :: s, r, evs, hs, h => by
    rw [cborElemsUntil] at h
    split at h
    · rename_i hc
      cases h
      exact ⟨[], [], by simp [hc], .nil, rfl⟩
    · obtain ⟨⟨e1, r1⟩, h1, h2⟩ := Rd.bind_ok_iff.1 h
      obtain ⟨⟨e2, r2⟩, h3, h4⟩ := Rd.bind_ok_iff.1 h2
      cases h4
      obtain ⟨t, v, e, ht, he⟩ := cborV_sound m ex fuel c s r1 e1 (fun b hb => hs b (List.mem_cons_of_mem _ hb)) h1
      obtain ⟨t', vs, rfl, ht', he'⟩ := cborElemsUntil_sound m ex fuel r1 r2 e2
        (fun b hb => hs b (by rw [e]; exact List.mem_append_right _ hb)) h3
      exact ⟨t ++ t', v :: vs, by rw [e]; simp, .cons ht ht', by rw [eventsL, he, he']⟩
theorem cborObj_sound (m : Mach) (ex : Bool) : ∀ (fuel len : Nat) (s r : Bytes) (evs : List (Event Nat)),
    (∀ b ∈ s, b < 256) → cborObj m ex fuel len s = .ok (evs, r) →
    ∃ t ms, evs = events (.obj ms) ∧ Pairs true t ms ∧
      ((len ≠ noSize ∧ s = t ++ r ∧ ms.length = len) ∨ (len = noSize ∧ s = t ++ 0xFF :: r))
  | 0, len, s, r, evs, _, h => by simp [cborObj] at h
  | fuel + 1, len, s, r, evs, hs, h => by
    rw [cborObj] at h
    split at h
    · rename_i hn
      split at h
      · cases h
      · obtain ⟨⟨e1, r1⟩, h1, h2⟩ := Rd.bind_ok_iff.1 h
        cases h2
        obtain ⟨t, vs, e, ht, hl, he⟩ := cborMembers_sound m ex fuel len s r1 e1 hs h1
        exact ⟨t, vs, by rw [events, he], ht, .inl ⟨hn, e, hl⟩⟩
    · rename_i hn
      obtain ⟨⟨e1, r1⟩, h1, h2⟩ := Rd.bind_ok_iff.1 h
      cases h2
      obtain ⟨t, vs, e, ht, he⟩ := cborMembersUntil_sound m ex fuel s r1 e1 hs h1
      exact ⟨t, vs, by rw [events, he], ht, .inr ⟨by simpa using hn, e⟩⟩
theorem cborMembers_sound (m : Mach) (ex : Bool) : ∀ (fuel n : Nat) (s r : Bytes) (evs : List (Event Nat)),
    (∀ b ∈ s, b < 256) → cborMembers m ex fuel n s = .ok (evs, r) →
    ∃ t ms, s = t ++ r ∧ Pairs true t ms ∧ ms.length = n ∧ evs = eventsM ms
  | fuel, 0, s, r, evs, _, h => by
    cases fuel <;> (simp only [cborMembers, Rd.ok.injEq, Prod.mk.injEq] at h; obtain ⟨rfl, rfl⟩ := h; exact ⟨[], [], rfl, .nil, rfl, rfl⟩)
  | fuel, _ + 1, [], r, evs, _, h => by cases fuel <;> simp [cborMembers] at h
  | 0, _ + 1, _ :: _, r, evs, _, h => by simp [cborMembers] at h
  | fuel + 1, n + 1, c :: s, r, evs, hs, h => by
    rw [cborMembers] at h
    obtain ⟨⟨k, r0⟩, h0, h⟩ := Rd.bind_ok_iff.1 h
    obtain ⟨⟨e1, r1⟩, h1, h2⟩ := Rd.bind_ok_iff.1 h
    obtain ⟨⟨e2, r2⟩, h3, h4⟩ := Rd.bind_ok_iff.1 h2
    cases h4
    obtain ⟨p, e, hp⟩ := cborString_sound m ex _ c s k r0 (fun b hb => hs b (List.mem_cons_of_mem _ hb)) h0
    rw [e] at hs
    match r0, hs, e, h1 with
    | [], _, _, h1 => cases fuel <;> simp [cborV] at h1
    | d :: r0, hs, e, h1 =>
      obtain ⟨t, v, e', ht, he⟩ := cborV_sound m ex fuel d r0 r1 e1
        (fun b hb => hs b (List.mem_append_right _ (List.mem_cons_of_mem _ hb))) h1
      rw [e'] at hs e
      obtain ⟨t', vs, rfl, ht', hl, he'⟩ := cborMembers_sound m ex fuel n r1 r2 e2
        (fun b hb => hs b (List.mem_append_right _ (List.mem_append_right _ hb))) h3
      exact ⟨p ++ (t ++ t'), (k, v) :: vs, by rw [e]; simp, .cons hp ht ht', by simp [hl], by rw [eventsM, he, he']⟩
theorem cborMembersUntil_sound (m : Mach) (ex : Bool) : ∀ (fuel : Nat) (s r : Bytes) (evs : List (Event Nat)),
    (∀ b ∈ s, b < 256) → cborMembersUntil m ex fuel s = .ok (evs, r) →
    ∃ t ms, s = t ++ 0xFF :: r ∧ Pairs true t ms ∧ evs = eventsM ms
  | fuel, [], r, evs, _, h => by cases fuel <;> simp [cborMembersUntil] at h
  | 0, _ :: _, r, evs, _, h => by simp [cborMembersUntil] at h
  | fuel + 1, c :: s, r, evs, hs, h => by
    rw [cborMembersUntil] at h
    split at h
    · rename_i hc
      cases h
      exact ⟨[], [], by simp [hc], .nil, rfl⟩
    · obtain ⟨⟨k, r0⟩, h0, h⟩ := Rd.bind_ok_iff.1 h
      obtain ⟨⟨e1, r1⟩, h1, h2⟩ := Rd.bind_ok_iff.1 h
      obtain ⟨⟨e2, r2⟩, h3, h4⟩ := Rd.bind_ok_iff.1 h2
      cases h4
      obtain ⟨p, e, hp⟩ := cborString_sound m ex _ c s k r0 (fun b hb => hs b (List.mem_cons_of_mem _ hb)) h0
      rw [e] at hs
      match r0, hs, e, h1 with
      | [], _, _, h1 => cases fuel <;> simp [cborV] at h1
      | d :: r0, hs, e, h1 =>
        obtain ⟨t, v, e', ht, he⟩ := cborV_sound m ex fuel d r0 r1 e1
          (fun b hb => hs b (List.mem_append_right _ (List.mem_cons_of_mem _ hb))) h1
        rw [e'] at hs e
        obtain ⟨t', vs, rfl, ht', he'⟩ := cborMembersUntil_sound m ex fuel r1 r2 e2
          (fun b hb => hs b (List.mem_append_right _ (List.mem_append_right _ hb))) h3
        exact ⟨p ++ (t ++ t'), (k, v) :: vs, by rw [e]; simp, .cons hp ht ht', by rw [eventsM, he, he']⟩
end

end Verif.Json
