import Verif.Json.UbjModel
import Verif.Json.BsonLemmas

/-!
# UBJSON, as its specification defines it, and the reader of the code
-/

namespace Verif.Json

namespace Spec.Ubj

/-- bytes 'N', which stand for nothing -/
def Noops (ns : Bytes) : Prop := ∀ b ∈ ns, b = 0x4E

/-- the signed number with the bytes given, the highest first -/
def IsInt (w : Nat) (bs : Bytes) (i : Int) : Prop :=
  bs.length = w ∧ (∀ b ∈ bs, b < 256) ∧ -2 ^ (8 * w - 1) ≤ i ∧ i < 2 ^ (8 * w - 1) ∧ i % 2 ^ (8 * w) = big bs

/-- an integer: its type, its bytes and its value -/
inductive Num : Nat → Bytes → Int → Prop
  | uint8 {b : Nat} : b < 256 → Num 0x55 [b] b
  | int8 {bs : Bytes} {i : Int} : IsInt 1 bs i → Num 0x69 bs i
  | int16 {bs : Bytes} {i : Int} : IsInt 2 bs i → Num 0x49 bs i
  | int32 {bs : Bytes} {i : Int} : IsInt 4 bs i → Num 0x6C bs i
  | int64 {bs : Bytes} {i : Int} : IsInt 8 bs i → Num 0x4C bs i

/-- a text, without the type 'S': its length, then its bytes.  With `lax`, it need not be UTF-8, and a length below 0 counts
as 0. -/
inductive Text (lax : Bool) : Bytes → Bytes → Prop
  | mk {c : Nat} {l s : Bytes} {i : Int} : Num c l i → (i = s.length ∨ (lax = true ∧ i < 0 ∧ s = [])) → (∀ b ∈ s, b < 256) →
      (lax = true ∨ Utf8 s) → Text lax (c :: (l ++ s)) s

/-- the size of a container, 'N' allowed before '#' and before the type of the integer -/
inductive Count : Bytes → Nat → Prop
  | mk {ns ns' l : Bytes} {c n : Nat} : Noops ns → Noops ns' → Num c l n → Count (ns ++ 0x23 :: (ns' ++ c :: l)) n

/-- the types of values that have a counterpart in JSON -/
def markers : List Nat := [0x54, 0x46, 0x5A, 0x55, 0x69, 0x49, 0x6C, 0x4C, 0x64, 0x44, 0x43, 0x53, 0x5B, 0x7B]

mutual
/-- a value: its type, the bytes that follow, and the value, with the members of objects in the order of the text, repeated
names included.  The sizes of arrays are at most `A`, those of objects at most `O`.  With `lax`, besides what `Text` says, the type
of a container can be 0 for "no type", and any byte if the container is empty. -/
inductive Body (A O : Nat) (lax : Bool) : Nat → Bytes → Json Nat → Prop
  | true : Body A O lax 0x54 [] (.bool true)
  | false : Body A O lax 0x46 [] (.bool false)
  | null : Body A O lax 0x5A [] .null
  | uint {b : Nat} : b < 256 → Body A O lax 0x55 [b] (.uint b)
  | int {c : Nat} {bs : Bytes} {i : Int} : c ≠ 0x55 → Num c bs i → Body A O lax c bs (.int i)
  | single {bs : Bytes} : bs.length = 4 → (∀ b ∈ bs, b < 256) → Body A O lax 0x64 bs (.float (readSingle (big bs)))
  | double {bs : Bytes} : bs.length = 8 → (∀ b ∈ bs, b < 256) → Body A O lax 0x44 bs (.float (big bs))
  | char {b : Nat} : b < 128 → Body A O lax 0x43 [b] (.str [b])
  | str {t s : Bytes} : Text lax t s → Body A O lax 0x53 t (.str s)
  | arr {t ns : Bytes} {vs : List (Json Nat)} : Elems A O lax none t vs → Noops ns →
      Body A O lax 0x5B (t ++ (ns ++ [0x5D])) (.arr vs)
  | arrCount {h t : Bytes} {vs : List (Json Nat)} : Count h vs.length → vs.length ≤ A → Elems A O lax none t vs →
      Body A O lax 0x5B (h ++ t) (.arr vs)
  | arrType {ns h t : Bytes} {c : Nat} {vs : List (Json Nat)} : Noops ns → Count h vs.length → vs.length ≤ A →
      (lax = true ∨ c ∈ markers) → c < 256 → c ≠ 0 → c ≠ 0x4E → Elems A O lax (some c) t vs →
      Body A O lax 0x5B (ns ++ 0x24 :: c :: (h ++ t)) (.arr vs)
  | arrNoops {ns h : Bytes} {n : Nat} : Noops ns → Count h n → n ≤ A → Body A O lax 0x5B (ns ++ 0x24 :: 0x4E :: h) (.arr [])
  | arrZero {ns h t : Bytes} {vs : List (Json Nat)} : lax = true → Noops ns → Count h vs.length → vs.length ≤ A →
      Elems A O lax none t vs → Body A O lax 0x5B (ns ++ 0x24 :: 0 :: (h ++ t)) (.arr vs)
  | obj {t ns : Bytes} {ms : List (Bytes × Json Nat)} : Pairs A O lax true none t ms → Noops ns →
      Body A O lax 0x7B (t ++ (ns ++ [0x7D])) (.obj ms)
  | objCount {h t : Bytes} {ms : List (Bytes × Json Nat)} : Count h ms.length → ms.length ≤ O → Pairs A O lax false none t ms →
      Body A O lax 0x7B (h ++ t) (.obj ms)
  | objType {ns h t : Bytes} {c : Nat} {ms : List (Bytes × Json Nat)} : Noops ns → Count h ms.length → ms.length ≤ O →
      (lax = true ∨ c ∈ markers) → c < 256 → c ≠ 0 → Pairs A O lax false (some c) t ms →
      Body A O lax 0x7B (ns ++ 0x24 :: c :: (h ++ t)) (.obj ms)
  | objZero {ns h t : Bytes} {ms : List (Bytes × Json Nat)} : lax = true → Noops ns → Count h ms.length → ms.length ≤ O →
      Pairs A O lax false none t ms → Body A O lax 0x7B (ns ++ 0x24 :: 0 :: (h ++ t)) (.obj ms)
/-- an element: its type, with 'N' allowed before it, and its bytes; or the bytes alone if the container gives the type -/
inductive Elem (A O : Nat) (lax : Bool) : Option Nat → Bytes → Json Nat → Prop
  | own {ns t : Bytes} {c : Nat} {v : Json Nat} : Noops ns → Body A O lax c t v → Elem A O lax none (ns ++ c :: t) v
  | shared {t : Bytes} {c : Nat} {v : Json Nat} : Body A O lax c t v → Elem A O lax (some c) t v
/-- the elements of an array -/
inductive Elems (A O : Nat) (lax : Bool) : Option Nat → Bytes → List (Json Nat) → Prop
  | nil {ty : Option Nat} : Elems A O lax ty [] []
  | cons {ty : Option Nat} {t ts : Bytes} {v : Json Nat} {vs : List (Json Nat)} : Elem A O lax ty t v → Elems A O lax ty ts vs →
      Elems A O lax ty (t ++ ts) (v :: vs)
/-- the members of an object; 'N' is allowed before the names if no size is given (`opened`) -/
inductive Pairs (A O : Nat) (lax : Bool) : Bool → Option Nat → Bytes → List (Bytes × Json Nat) → Prop
  | nil {opened : Bool} {ty : Option Nat} : Pairs A O lax opened ty [] []
  | cons {opened : Bool} {ty : Option Nat} {ns k s t ts : Bytes} {v : Json Nat} {ms : List (Bytes × Json Nat)} : Noops ns →
      (opened = true ∨ ns = []) → Text lax k s → Elem A O lax ty t v → Pairs A O lax opened ty ts ms →
      Pairs A O lax opened ty (ns ++ (k ++ (t ++ ts))) ((s, v) :: ms)
end

/-- a text of UBJSON -/
abbrev Item (A O : Nat) (lax : Bool) (t : Bytes) (v : Json Nat) : Prop := Elem A O lax none t v

end Spec.Ubj

open Spec Spec.Ubj

/-! ## The bytes 'N' -/

theorem dropNoop_spec : ∀ s : Bytes, ∃ ns, Noops ns ∧ s = ns ++ dropNoop s
  | [] => ⟨[], by simp [Noops], rfl⟩
  | b :: s => by
    rw [dropNoop]
    by_cases hb : b = 0x4E
    · rw [if_pos hb]
      obtain ⟨ns, h1, h2⟩ := dropNoop_spec s
      refine ⟨b :: ns, ?_, by rw [List.cons_append, ← h2]⟩
      intro x hx
      rcases List.mem_cons.1 hx with rfl | hx
      · exact hb
      · exact h1 x hx
    · rw [if_neg hb]
      exact ⟨[], by simp [Noops], rfl⟩

theorem dropNoop_head : ∀ {s r : Bytes} {c : Nat}, dropNoop s = c :: r → c ≠ 0x4E
  | [], _, _, h => by simp [dropNoop] at h
  | b :: s, r, c, h => by
    rw [dropNoop] at h
    by_cases hb : b = 0x4E
    · rw [if_pos hb] at h; exact dropNoop_head h
    · rw [if_neg hb] at h; cases h; exact hb

theorem dropNoop_append : ∀ {ns : Bytes} (s : Bytes), Noops ns → dropNoop (ns ++ s) = dropNoop s
  | [], _, _ => rfl
  | b :: ns, s, h => by
    rw [List.cons_append, dropNoop, if_pos (h b (by simp))]
    exact dropNoop_append s fun x hx => h x (by simp [hx])

theorem dropNoop_cons {c : Nat} (h : c ≠ 0x4E) (s : Bytes) : dropNoop (c :: s) = c :: s := by rw [dropNoop, if_neg h]

theorem getNoop_append {ns : Bytes} {c : Nat} (s : Bytes) (h : Noops ns) (hc : c ≠ 0x4E) :
    getNoop (ns ++ c :: s) = (some c, s) := by
  rw [getNoop, dropNoop_append _ h, dropNoop_cons hc]; rfl

/-- either only bytes 'N' are left, or a byte that is not 'N' is read -/
theorem getNoop_cases (s : Bytes) : (Noops s ∧ getNoop s = (none, [])) ∨
    ∃ ns c r, Noops ns ∧ c ≠ 0x4E ∧ s = ns ++ c :: r ∧ getNoop s = (some c, r) := by
  obtain ⟨ns, h1, h2⟩ := dropNoop_spec s
  cases e : dropNoop s with
  | nil =>
    left
    rw [e, List.append_nil] at h2
    exact ⟨h2 ▸ h1, by rw [getNoop, e]; rfl⟩
  | cons c r =>
    right
    exact ⟨ns, c, r, h1, dropNoop_head e, by rw [← e]; exact h2, by rw [getNoop, e]; rfl⟩

/-! ## Numbers -/

theorem ubj_asSigned {k w : Nat} {bs : Bytes} (hk : k < 4) (hw : w = 2 ^ k) (hl : bs.length = w)
    (hb : ∀ b ∈ bs, b < 256) : Ubj.IsInt w bs (asSigned w (big bs)) := by
  have hlt := big_lt hb
  rw [hl] at hlt
  subst hw
  obtain ⟨h1, h2, h3⟩ := asSigned_spec hk hlt
  exact ⟨hl, hb, h1, h2, h3⟩

theorem ubj_only {k w : Nat} {bs : Bytes} {i : Int} (hk : k < 4) (hw : w = 2 ^ k) (h : Ubj.IsInt w bs i) :
    asSigned w (big bs) = i := by
  subst hw
  exact asSigned_only hk h.2.2.1 h.2.2.2.1 h.2.2.2.2

theorem big_one (b : Nat) : big [b] = b := by simp [big]

theorem ubjInt_sound {m : Mach} {c : Nat} {s r : Bytes} {i : Int} (hs : AllBytes s)
    (h : ubjInt m c s = .ok (i, r)) : ∃ l, s = l ++ r ∧ Num c l i := by
  rw [ubjInt] at h
  have key : ∀ k w, k < 4 → w = 2 ^ k → (getNumber m false w s).bind (fun p => .ok (asSigned w p.1, p.2)) = .ok (i, r) →
      ∃ l, s = l ++ r ∧ Ubj.IsInt w l i := by
    intro k w hk hw h
    obtain ⟨⟨n, r1⟩, h1, h2⟩ := Rd.bind_ok_iff.1 h
    cases h2
    obtain ⟨bs, rfl, hl, rfl⟩ := getNumber_ok h1
    exact ⟨bs, rfl, ubj_asSigned hk hw hl hs.left⟩
  rcases ite_cases h with ⟨rfl, h⟩ | ⟨_, h⟩
  · obtain ⟨⟨n, r1⟩, h1, h2⟩ := Rd.bind_ok_iff.1 h
    cases h2
    obtain ⟨bs, rfl, hl, rfl⟩ := getNumber_ok h1
    obtain ⟨b, rfl⟩ := List.length_eq_one_iff.1 hl
    rw [big_one]
    exact ⟨[b], rfl, .uint8 (hs b (by simp))⟩
  rcases ite_cases h with ⟨rfl, h⟩ | ⟨_, h⟩
  · obtain ⟨l, e, h⟩ := key 0 1 (by decide) (by decide) h; exact ⟨l, e, .int8 h⟩
  rcases ite_cases h with ⟨rfl, h⟩ | ⟨_, h⟩
  · obtain ⟨l, e, h⟩ := key 1 2 (by decide) (by decide) h; exact ⟨l, e, .int16 h⟩
  rcases ite_cases h with ⟨rfl, h⟩ | ⟨_, h⟩
  · obtain ⟨l, e, h⟩ := key 2 4 (by decide) (by decide) h; exact ⟨l, e, .int32 h⟩
  rcases ite_cases h with ⟨rfl, h⟩ | ⟨_, h⟩
  · obtain ⟨l, e, h⟩ := key 3 8 (by decide) (by decide) h; exact ⟨l, e, .int64 h⟩
  · cases h

theorem ubjInt_read (m : Mach) {c : Nat} {l : Bytes} {i : Int} (h : Num c l i) (r : Bytes) :
    ubjInt m c (l ++ r) = .ok (i, r) := by
  cases h with
  | @uint8 b hb => rw [ubjInt, if_pos rfl, getNumber_append m (bs := [b]) (w := 1) rfl, big_one]; rfl
  | int8 h =>
    rw [ubjInt]; branch; rw [getNumber_append m h.1, Rd.ok_bind, ubj_only (k := 0) (by decide) (by decide) h]
  | int16 h =>
    rw [ubjInt]; branch; rw [getNumber_append m h.1, Rd.ok_bind, ubj_only (k := 1) (by decide) (by decide) h]
  | int32 h =>
    rw [ubjInt]; branch; rw [getNumber_append m h.1, Rd.ok_bind, ubj_only (k := 2) (by decide) (by decide) h]
  | int64 h =>
    rw [ubjInt]; branch; rw [getNumber_append m h.1, Rd.ok_bind, ubj_only (k := 3) (by decide) (by decide) h]

theorem Spec.Ubj.Num.ne_noop {c : Nat} {l : Bytes} {i : Int} (h : Num c l i) : c ≠ 0x4E := by cases h <;> decide

theorem Spec.Ubj.Num.range {c : Nat} {l : Bytes} {i : Int} (h : Num c l i) : -2 ^ 63 ≤ i ∧ i < 2 ^ 63 := by
  cases h with
  | uint8 h => omega
  | int8 h => have h1 := h.2.2.1; have h2 := h.2.2.2.1; simp only [Nat.reduceMul, Nat.reduceSub] at h1 h2; omega
  | int16 h => have h1 := h.2.2.1; have h2 := h.2.2.2.1; simp only [Nat.reduceMul, Nat.reduceSub] at h1 h2; omega
  | int32 h => have h1 := h.2.2.1; have h2 := h.2.2.2.1; simp only [Nat.reduceMul, Nat.reduceSub] at h1 h2; omega
  | int64 h => have h1 := h.2.2.1; have h2 := h.2.2.2.1; simp only [Nat.reduceMul, Nat.reduceSub] at h1 h2; omega

theorem Spec.Ubj.Num.marker {c : Nat} {l : Bytes} {i : Int} (h : Num c l i) : c ∈ markers := by cases h <;> decide

theorem Spec.Ubj.Num.bytes {c : Nat} {l : Bytes} {i : Int} (h : Num c l i) : AllBytes l := by
  cases h with
  | uint8 h => simpa [AllBytes] using h
  | int8 h => exact h.2.1
  | int16 h => exact h.2.1
  | int32 h => exact h.2.1
  | int64 h => exact h.2.1

/-- the last byte of -1 -/
theorem Spec.Ubj.Num.minus_one {c : Nat} {l : Bytes} (h : Num c l (-1)) : l.getLast? = some 0xFF := by
  have hm : ∀ w, (w = 1 ∨ w = 2 ∨ w = 4 ∨ w = 8) → Ubj.IsInt w l (-1) → l.getLast? = some 0xFF := by
    intro w hw ⟨hl, hb, _, _, h⟩
    obtain ⟨l', b, rfl⟩ : ∃ l' b, l = l' ++ [b] := by
      rcases List.eq_nil_or_concat l with rfl | ⟨l', b, rfl⟩
      · simp at hl; omega
      · exact ⟨l', b, by simp⟩
    rw [big_append] at h
    have hlt : b < 256 := hb b (by simp)
    simp only [List.length_cons, List.length_nil, big_one] at h
    rw [List.getLast?_append]
    simp only [List.getLast?_singleton, Option.some_or, Option.some.injEq]
    rcases hw with rfl | rfl | rfl | rfl <;> simp only [Nat.reduceMul, Nat.reduceAdd] at h <;> omega
  generalize hi : (-1 : Int) = i at h
  cases h with
  | uint8 h => omega
  | int8 h => subst hi; exact hm 1 (by decide) h
  | int16 h => subst hi; exact hm 2 (by decide) h
  | int32 h => subst hi; exact hm 4 (by decide) h
  | int64 h => subst hi; exact hm 8 (by decide) h

/-! ## Texts and sizes -/

theorem ubjString_sound {m : Mach} {ex : Bool} {c : Option Nat} {s t r : Bytes} (hs : AllBytes s)
    (h : ubjString m ex c s = .ok (t, r)) : ∃ c' p, c = some c' ∧ c' :: s = p ++ r ∧ Text true p t ∧ AllBytes r := by
  match c, h with
  | some c, h =>
    simp only [ubjString] at h
    obtain ⟨⟨i, r1⟩, h1, h2⟩ := Rd.bind_ok_iff.1 h
    obtain ⟨l, rfl, hn⟩ := ubjInt_sound hs h1
    obtain ⟨rfl, hl⟩ := takeString_ok h2
    simp only at hl
    refine ⟨c, c :: (l ++ t), rfl, by simp, .mk hn ?_ hs.right.left (.inl rfl), hs.right.right⟩
    by_cases hi : i < 0
    · right
      refine ⟨rfl, hi, ?_⟩
      apply List.eq_nil_of_length_eq_zero
      omega
    · left; omega

theorem ubjString_read (m : Mach) (ex : Bool) {p t : Bytes} (h : Text true p t) (hm : p.length ≤ m.maxStr) (r : Bytes) :
    ∃ c q, p = c :: q ∧ c ≠ 0x4E ∧ c ∈ markers ∧ ubjString m ex (some c) (q ++ r) = .ok (t, r) := by
  cases h with
  | @mk c l _ i hn hi hb _ =>
    refine ⟨c, l ++ t, rfl, hn.ne_noop, hn.marker, ?_⟩
    simp only [List.length_cons, List.length_append] at hm
    simp only [ubjString]
    rw [List.append_assoc, ubjInt_read m hn, Rd.ok_bind, takeString_append m ex (t := t) (len := i.toNat)
      (by rcases hi with hi | ⟨_, hi, hs⟩
          · omega
          · rw [hs, List.length_nil]; omega) (by omega)]

/-- what is found after '#': a size, or -1, or a number below -/
theorem ubjSize_sound {m : Mach} {s r : Bytes} {n : Nat} {cur : Option Nat} (hs : AllBytes s)
    (h : ubjSize m s = .ok ((n, cur), r)) : ∃ ns c l i, Noops ns ∧ s = ns ++ c :: (l ++ r) ∧ Num c l i ∧
      n = (i % 2 ^ 64).toNat ∧ cur = l.getLast? ∧ AllBytes r := by
  rw [ubjSize] at h
  rcases getNoop_cases s with ⟨_, e⟩ | ⟨ns, c, r1, h1, h2, rfl, e⟩
  · rw [e] at h; cases h
  · rw [e] at h
    simp only at h
    obtain ⟨⟨i, r2⟩, h3, h4⟩ := Rd.bind_ok_iff.1 h
    obtain ⟨l, rfl, hn⟩ := ubjInt_sound hs.right.tail h3
    cases h4
    refine ⟨ns, c, l, i, h1, rfl, hn, rfl, ?_, hs.right.tail.right⟩
    simp

theorem ubjSize_read (m : Mach) {ns l : Bytes} {c : Nat} {i : Int} (h1 : Noops ns) (h : Num c l i) (r : Bytes) :
    ubjSize m (ns ++ c :: (l ++ r)) = .ok (((i % 2 ^ 64).toNat, l.getLast?), r) := by
  rw [ubjSize, getNoop_append _ h1 h.ne_noop]
  simp only
  rw [ubjInt_read m h, Rd.ok_bind]
  simp

theorem ubjTyped_sound {m : Mach} {s r : Bytes} {h : UbjHead} (hs : AllBytes s) (hh : ubjTyped m s = .ok (h, r)) :
    AllBytes r ∧ ∃ t ns' ns'' c l i, t < 256 ∧ Noops ns' ∧ Noops ns'' ∧ Num c l i ∧
        s = t :: (ns' ++ 0x23 :: (ns'' ++ c :: (l ++ r))) ∧ h = ⟨(i % 2 ^ 64).toNat, t, l.getLast?⟩ := by
  cases s with
  | nil => cases hh
  | cons t r1 =>
    simp only [ubjTyped] at hh
    rcases getNoop_cases r1 with ⟨_, e⟩ | ⟨ns', c', r2, h3, h4, rfl, e⟩
    · rw [e] at hh; cases hh
    · rw [e] at hh
      simp only at hh
      rcases ite_cases hh with ⟨rfl, hh⟩ | ⟨_, hh⟩
      · obtain ⟨⟨⟨n, cur⟩, r3⟩, h5, h6⟩ := Rd.bind_ok_iff.1 hh
        cases h6
        obtain ⟨ns'', c, l, i, h7, rfl, hn, rfl, rfl, hb⟩ := ubjSize_sound hs.tail.right.tail h5
        exact ⟨hb, t, ns', ns'', c, l, i, hs t (by simp), h3, h7, hn, rfl, rfl⟩
      · cases hh

/-- what `ubjHead` can find -/
theorem ubjHead_sound {m : Mach} {s r : Bytes} {h : UbjHead} (hs : AllBytes s) (hh : ubjHead m s = .ok (h, r)) :
    AllBytes r ∧
    ((Noops s ∧ r = [] ∧ h = ⟨ubjNone, 0, none⟩) ∨
     (∃ ns c, Noops ns ∧ c ≠ 0x4E ∧ c ≠ 0x24 ∧ c ≠ 0x23 ∧ s = ns ++ c :: r ∧ h = ⟨ubjNone, 0, some c⟩) ∨
     (∃ ns ns' c l i, Noops ns ∧ Noops ns' ∧ Num c l i ∧ s = ns ++ 0x23 :: (ns' ++ c :: (l ++ r)) ∧
        h = ⟨(i % 2 ^ 64).toNat, 0, l.getLast?⟩) ∨
     (∃ ns t ns' ns'' c l i, Noops ns ∧ t < 256 ∧ Noops ns' ∧ Noops ns'' ∧ Num c l i ∧
        s = ns ++ 0x24 :: t :: (ns' ++ 0x23 :: (ns'' ++ c :: (l ++ r))) ∧ h = ⟨(i % 2 ^ 64).toNat, t, l.getLast?⟩)) := by
  rw [ubjHead] at hh
  rcases getNoop_cases s with ⟨h0, e⟩ | ⟨ns, c, r1, h1, h2, rfl, e⟩
  · rw [e] at hh; cases hh
    exact ⟨by simp [AllBytes], .inl ⟨h0, rfl, rfl⟩⟩
  · rw [e] at hh
    simp only at hh
    have hs1 : AllBytes r1 := hs.right.tail
    rcases ite_cases hh with ⟨rfl, hh⟩ | ⟨hc1, hh⟩
    · obtain ⟨hb, t, ns', ns'', c, l, i, ht, h3, h4, hn, rfl, rfl⟩ := ubjTyped_sound hs1 hh
      exact ⟨hb, .inr (.inr (.inr ⟨ns, t, ns', ns'', c, l, i, h1, ht, h3, h4, hn, rfl, rfl⟩))⟩
    rcases ite_cases hh with ⟨rfl, hh⟩ | ⟨hc2, hh⟩
    · obtain ⟨⟨⟨n, cur⟩, r3⟩, h5, h6⟩ := Rd.bind_ok_iff.1 hh
      cases h6
      obtain ⟨ns'', c, l, i, h7, rfl, hn, rfl, rfl, hb⟩ := ubjSize_sound hs1 h5
      exact ⟨hb, .inr (.inr (.inl ⟨ns, ns'', c, l, i, h1, h7, hn, rfl, rfl⟩))⟩
    · cases hh
      exact ⟨hs1, .inr (.inl ⟨ns, c, h1, h2, hc1, hc2, rfl, rfl⟩)⟩

/-- a number taken for a size: the size, or none, or more than there can be -/
theorem ubj_size_cases {A : Nat} (hA : A < 2 ^ 63) {c : Nat} {l : Bytes} {i : Int} (h : Num c l i)
    (hle : (i % 2 ^ 64).toNat ≠ ubjNone → (i % 2 ^ 64).toNat ≤ A) :
    (∃ n : Nat, i = n ∧ (i % 2 ^ 64).toNat = n ∧ n ≠ ubjNone ∧ n ≤ A) ∨
      (i = -1 ∧ (i % 2 ^ 64).toNat = ubjNone) := by
  have hr := h.range
  simp only [ubjNone] at *
  by_cases h0 : 0 ≤ i
  · left
    exact ⟨i.toNat, by omega, by omega, by omega, by omega⟩
  · right
    omega

/-! ## What is read is a value -/

/-- `f` reads values -/
def UbjSound (A O : Nat) (f : Option Nat → Bytes → Rd (List (Event Nat) × Bytes)) : Prop :=
  (∀ s, f none s = .fail 110) ∧ ∀ c s r evs, AllBytes s → f (some c) s = .ok (evs, r) →
    ∃ t v, s = t ++ r ∧ Body A O true c t v ∧ evs = events v

/-- `f` reads elements -/
def ElemSound (A O : Nat) (ty : Option Nat) (f : Bytes → Rd (List (Event Nat) × Bytes)) : Prop :=
  ∀ s r evs, AllBytes s → f s = .ok (evs, r) → ∃ t v, s = t ++ r ∧ Elem A O true ty t v ∧ evs = events v

theorem UbjSound.shared {A O : Nat} {f : Option Nat → Bytes → Rd (List (Event Nat) × Bytes)} (h : UbjSound A O f) (c : Nat) :
    ElemSound A O (some c) (f (some c)) := fun s r evs hs he => by
  obtain ⟨t, v, e, hb, he⟩ := h.2 c s r evs hs he
  exact ⟨t, v, e, .shared hb, he⟩

theorem UbjSound.own {A O : Nat} {f : Option Nat → Bytes → Rd (List (Event Nat) × Bytes)} (h : UbjSound A O f) :
    ElemSound A O none (fun s => f (getNoop s).1 (getNoop s).2) := fun s r evs hs he => by
  simp only at he
  rcases getNoop_cases s with ⟨_, e⟩ | ⟨ns, c, r1, h1, h2, rfl, e⟩
  · rw [e, h.1] at he; cases he
  · rw [e] at he
    obtain ⟨t, v, rfl, hb, he⟩ := h.2 c r1 r evs hs.right.tail he
    exact ⟨ns ++ c :: t, v, by simp, .own h1 hb, he⟩

theorem ubjRepeat_sound {A O : Nat} {ty : Option Nat} {f : Bytes → Rd (List (Event Nat) × Bytes)} (hf : ElemSound A O ty f) :
    ∀ (n : Nat) (s r : Bytes) (evs : List (Event Nat)), AllBytes s → ubjRepeat f n s = .ok (evs, r) →
      ∃ t vs, s = t ++ r ∧ Elems A O true ty t vs ∧ vs.length = n ∧ evs = eventsL vs
  | 0, s, r, evs, _, h => by
    simp only [ubjRepeat] at h
    cases h
    exact ⟨[], [], rfl, .nil, rfl, by simp [eventsL]⟩
  | n + 1, s, r, evs, hs, h => by
    simp only [ubjRepeat] at h
    obtain ⟨⟨e1, r1⟩, h1, h2⟩ := Rd.bind_ok_iff.1 h
    obtain ⟨⟨e2, r2⟩, h3, h4⟩ := Rd.bind_ok_iff.1 h2
    cases h4
    obtain ⟨t, v, rfl, hb, he⟩ := hf _ _ _ hs h1
    obtain ⟨t', vs, rfl, hb', hl, he'⟩ := ubjRepeat_sound hf n _ _ _ hs.right h3
    exact ⟨t ++ t', v :: vs, by simp, .cons hb hb', by simp [hl], by simp only at *; rw [he, he']; simp [eventsL]⟩

theorem ubjMembers_sound {A O : Nat} {m : Mach} {ex : Bool} {ty : Option Nat} {f : Bytes → Rd (List (Event Nat) × Bytes)}
    (hf : ElemSound A O ty f) : ∀ (n : Nat) (s r : Bytes) (evs : List (Event Nat)), AllBytes s →
      ubjRepeat (ubjMember m ex f) n s = .ok (evs, r) →
      ∃ t ms, s = t ++ r ∧ Pairs A O true false ty t ms ∧ ms.length = n ∧ evs = eventsM ms
  | 0, s, r, evs, _, h => by
    simp only [ubjRepeat] at h
    cases h
    exact ⟨[], [], rfl, .nil, rfl, by simp [eventsM]⟩
  | n + 1, s, r, evs, hs, h => by
    simp only [ubjRepeat] at h
    obtain ⟨⟨e1, r1⟩, h1, h2⟩ := Rd.bind_ok_iff.1 h
    obtain ⟨⟨e2, r2⟩, h3, h4⟩ := Rd.bind_ok_iff.1 h2
    cases h4
    rw [ubjMember] at h1
    obtain ⟨⟨k, r0⟩, h5, h6⟩ := Rd.bind_ok_iff.1 h1
    obtain ⟨⟨e0, r1'⟩, h7, h8⟩ := Rd.bind_ok_iff.1 h6
    cases h8
    match s, h5 with
    | [], h5 => cases h5
    | c :: s, h5 =>
      obtain ⟨c', p, e, ep, ht, hb0⟩ := ubjString_sound hs.tail h5
      cases e
      obtain ⟨t, v, rfl, hb, he⟩ := hf _ _ _ hb0 h7
      obtain ⟨t', ms, rfl, hb', hl, he'⟩ := ubjMembers_sound hf n _ _ _ hb0.right h3
      refine ⟨[] ++ (p ++ (t ++ t')), (k, v) :: ms, by rw [ep]; simp, .cons (by simp [Noops]) (.inr rfl) ht hb hb',
        by simp [hl], ?_⟩
      simp only at *
      rw [he, he']
      simp [eventsM]

theorem ubjUntil_sound {A O : Nat} {f : Option Nat → Bytes → Rd (List (Event Nat) × Bytes)} (hf : UbjSound A O f) :
    ∀ (n c : Nat) (s r : Bytes) (evs : List (Event Nat)), AllBytes s → ubjUntil f n (some c) s = .ok (evs, r) →
      ∃ t ns vs, c :: s = t ++ (ns ++ 0x5D :: r) ∧ (c = 0x5D ∨ ∃ b v t', c :: t' = t ∧ Body A O true c b v) ∧
        (∀ ns', Noops ns' → (c ≠ 0x5D → ∃ vs', Elems A O true none (ns' ++ t) vs' ∧ vs' = vs) ∧ (c = 0x5D → t = [] ∧ vs = [])) ∧
        Noops ns ∧ evs = eventsL vs ∧ (c = 0x5D → ns = []) := by
  intro n
  induction n with
  | zero =>
    intro c s r evs hs h
    rw [ubjUntil] at h
    rcases ite_cases h with ⟨hc, h⟩ | ⟨_, h⟩
    · cases h; cases hc
      exact ⟨[], [], [], rfl, .inl rfl, fun ns' _ => ⟨fun h => absurd rfl h, fun _ => ⟨rfl, rfl⟩⟩, by simp [Noops],
        by simp [eventsL], fun _ => rfl⟩
    · cases h
  | succ n ih =>
    intro c s r evs hs h
    rw [ubjUntil] at h
    rcases ite_cases h with ⟨hc, h⟩ | ⟨hc, h⟩
    · cases h; cases hc
      exact ⟨[], [], [], rfl, .inl rfl, fun ns' _ => ⟨fun h => absurd rfl h, fun _ => ⟨rfl, rfl⟩⟩, by simp [Noops],
        by simp [eventsL], fun _ => rfl⟩
    · obtain ⟨⟨e1, r1⟩, h1, h2⟩ := Rd.bind_ok_iff.1 h
      obtain ⟨⟨e2, r2⟩, h3, h4⟩ := Rd.bind_ok_iff.1 h2
      cases h4
      obtain ⟨b, v, rfl, hb, he⟩ := hf.2 c _ _ _ hs h1
      rcases getNoop_cases r1 with ⟨_, e⟩ | ⟨ns1, c1, r1', hn1, hc1, rfl, e⟩
      · rw [e] at h3
        simp only at h3
        have : ubjUntil f n none [] ≠ .ok (e2, r2) := by
          cases n <;> simp [ubjUntil, hf.1]
        exact absurd h3 this
      · rw [e] at h3
        simp only at h3
        have hne : c ≠ 0x5D := fun h => hc (by rw [h])
        obtain ⟨t, ns, vs, e', _, hel, hns, hev, hns'⟩ := ih c1 r1' r2 e2 hs.right.right.tail h3
        by_cases hc5 : c1 = 0x5D
        · obtain ⟨rfl, rfl⟩ := (hel [] (by simp [Noops])).2 hc5
          rw [hns' hc5] at e'
          refine ⟨c :: b, ns1, [v], by rw [e']; simp, .inr ⟨b, v, b, rfl, hb⟩, fun ns' hns' =>
            ⟨fun _ => ⟨[v], ?_, rfl⟩, fun h => absurd h hne⟩, hn1, ?_, fun h => absurd h hne⟩
          · have := Elems.cons (Elem.own hns' hb) (Elems.nil (ty := none) (A := A) (O := O) (lax := true))
            simpa using this
          · simp only at *; rw [he, hev]; simp [eventsL]
        · obtain ⟨vs', h5, rfl⟩ := (hel ns1 hn1).1 hc5
          refine ⟨c :: (b ++ (ns1 ++ t)), ns, v :: vs', by rw [e']; simp, .inr ⟨b, v, _, rfl, hb⟩, fun ns' hns' =>
            ⟨fun _ => ⟨v :: vs', ?_, rfl⟩, fun h => absurd h hne⟩, hns, ?_, fun h => absurd h hne⟩
          · have := Elems.cons (Elem.own hns' hb) h5
            simpa using this
          · simp only at *; rw [he, hev]; simp [eventsL]

theorem ubjMembersUntil_sound {A O : Nat} {m : Mach} {ex : Bool} {f : Option Nat → Bytes → Rd (List (Event Nat) × Bytes)}
    (hf : UbjSound A O f) :
    ∀ (n c : Nat) (s r : Bytes) (evs : List (Event Nat)), AllBytes s → ubjMembersUntil m ex f n (some c) s = .ok (evs, r) →
      ∃ t ns ms, c :: s = t ++ (ns ++ 0x7D :: r) ∧
        (∀ ns', Noops ns' → (c ≠ 0x7D → Pairs A O true true none (ns' ++ t) ms) ∧ (c = 0x7D → t = [] ∧ ms = [])) ∧
        Noops ns ∧ evs = eventsM ms ∧ (c = 0x7D → ns = []) := by
  intro n
  induction n with
  | zero =>
    intro c s r evs hs h
    rw [ubjMembersUntil] at h
    rcases ite_cases h with ⟨hc, h⟩ | ⟨_, h⟩
    · cases h; cases hc
      exact ⟨[], [], [], rfl, fun ns' _ => ⟨fun h => absurd rfl h, fun _ => ⟨rfl, rfl⟩⟩, by simp [Noops],
        by simp [eventsM], fun _ => rfl⟩
    · cases h
  | succ n ih =>
    intro c s r evs hs h
    rw [ubjMembersUntil] at h
    rcases ite_cases h with ⟨hc, h⟩ | ⟨hc, h⟩
    · cases h; cases hc
      exact ⟨[], [], [], rfl, fun ns' _ => ⟨fun h => absurd rfl h, fun _ => ⟨rfl, rfl⟩⟩, by simp [Noops],
        by simp [eventsM], fun _ => rfl⟩
    · obtain ⟨⟨k, r0⟩, h0, h⟩ := Rd.bind_ok_iff.1 h
      obtain ⟨⟨e1, r1⟩, h1, h2⟩ := Rd.bind_ok_iff.1 h
      obtain ⟨⟨e2, r2⟩, h3, h4⟩ := Rd.bind_ok_iff.1 h2
      cases h4
      obtain ⟨c', p, e, ep, ht, hb0⟩ := ubjString_sound hs h0
      cases e
      obtain ⟨b, v, rfl, hb, he⟩ := hf.own _ _ _ hb0 h1
      have hne : c ≠ 0x7D := fun h => hc (by rw [h])
      rcases getNoop_cases r1 with ⟨_, e⟩ | ⟨ns1, c1, r1', hn1, hc1, rfl, e⟩
      · rw [e] at h3
        simp only at h3
        have : ubjMembersUntil m ex f n none [] ≠ .ok (e2, r2) := by
          cases n <;> simp [ubjMembersUntil, ubjString]
        exact absurd h3 this
      · rw [e] at h3
        simp only at h3
        obtain ⟨t, ns, ms, e', hel, hns, hev, hns'⟩ := ih c1 r1' r2 e2 hb0.right.right.tail h3
        by_cases hc5 : c1 = 0x7D
        · obtain ⟨rfl, rfl⟩ := (hel [] (by simp [Noops])).2 hc5
          rw [hns' hc5] at e'
          refine ⟨p ++ b, ns1, [(k, v)], by rw [ep, e']; simp, fun ns' hns' =>
            ⟨fun _ => ?_, fun h => absurd h hne⟩, hn1, ?_, fun h => absurd h hne⟩
          · have := Pairs.cons (opened := true) hns' (.inl rfl) ht hb (Pairs.nil (ty := none))
            simpa using this
          · simp only at *; rw [he, hev]; simp [eventsM]
        · have h5 := (hel ns1 hn1).1 hc5
          refine ⟨p ++ (b ++ (ns1 ++ t)), ns, (k, v) :: ms, by rw [ep, e']; simp, fun ns' hns' =>
            ⟨fun _ => ?_, fun h => absurd h hne⟩, hns, ?_, fun h => absurd h hne⟩
          · exact Pairs.cons (opened := true) hns' (.inl rfl) ht hb h5
          · simp only at *; rw [he, hev]; simp [eventsM]

theorem not_body_255 {A O : Nat} {lax : Bool} {t : Bytes} {v : Json Nat} (h : Body A O lax 0xFF t v) : False := by
  generalize hc : 0xFF = c at h
  cases h with
  | int h1 h2 => subst hc; cases h2
  | _ => cases hc

theorem not_text_255 {lax : Bool} {t s : Bytes} (h : Text lax (0xFF :: t) s) : False := by
  cases h with
  | mk hn _ _ _ => cases hn

theorem ubjArr_sound {m : Mach} (hA : m.maxArr < 2 ^ 63) {O : Nat} {f : Option Nat → Bytes → Rd (List (Event Nat) × Bytes)}
    (hf : UbjSound m.maxArr O f) {s r : Bytes} {evs : List (Event Nat)} (hs : AllBytes s) (h : ubjArr m f s = .ok (evs, r)) :
    ∃ t vs, s = t ++ r ∧ Body m.maxArr O true 0x5B t (.arr vs) ∧ evs = eventsL vs := by
  rw [ubjArr] at h
  obtain ⟨⟨hd, r1⟩, h1, h⟩ := Rd.bind_ok_iff.1 h
  obtain ⟨hb, hh⟩ := ubjHead_sound hs h1
  simp only at h
  have until255 : ¬ ubjUntil f (r1.length + 2) (some 0xFF) r1 = .ok (evs, r) := fun h => by
    obtain ⟨t, ns, vs, _, h4, _⟩ := ubjUntil_sound hf _ _ _ _ _ hb h
    rcases h4 with h4 | ⟨b, v, t', _, h4⟩
    · cases h4
    · exact not_body_255 h4
  rcases hh with ⟨_, rfl, rfl⟩ | ⟨ns, c, h2, h3, h4, h5, rfl, rfl⟩ | ⟨ns, ns', c, l, i, h2, h3, hn, rfl, rfl⟩ |
    ⟨ns, t, ns', ns'', c, l, i, h2, ht, h3, h4, hn, rfl, rfl⟩
  · rw [if_neg (by simp)] at h
    simp only [ubjUntil, hf.1] at h
    cases h
  · rw [if_neg (by simp)] at h
    simp only at h
    obtain ⟨t, nn, vs, e, _, hel, hnn, he, hc5⟩ := ubjUntil_sound hf _ _ _ _ _ hb h
    by_cases hc : c = 0x5D
    · obtain ⟨rfl, rfl⟩ := (hel [] (by simp [Noops])).2 hc
      obtain rfl := hc5 hc
      refine ⟨[] ++ (ns ++ [0x5D]), [], ?_, .arr .nil h2, he⟩
      rw [e]; simp
    · obtain ⟨vs', h6, rfl⟩ := (hel ns h2).1 hc
      refine ⟨(ns ++ t) ++ (nn ++ [0x5D]), vs', ?_, .arr h6 hnn, he⟩
      rw [e]; simp
  · simp only at h
    rcases ite_cases h with ⟨hne, h⟩ | ⟨hne, h⟩
    · rcases ite_cases h with ⟨_, h⟩ | ⟨hle, h⟩
      · cases h
      · rcases ubj_size_cases hA hn (fun _ => by omega) with ⟨n, rfl, e1, e2, e3⟩ | ⟨_, e1⟩
        · rw [e1] at h
          rw [if_neg (by simp)] at h
          obtain ⟨t, vs, rfl, hel, hl, he⟩ := ubjRepeat_sound hf.own _ _ _ _ hb h
          exact ⟨(ns ++ 0x23 :: (ns' ++ c :: l)) ++ t, vs, by simp, .arrCount (by rw [hl]; exact .mk h2 h3 hn) (by omega) hel, he⟩
        · exact absurd e1 hne
    · rcases ubj_size_cases hA hn (fun e => absurd e hne) with ⟨n, rfl, e1, e2, e3⟩ | ⟨rfl, e1⟩
      · rw [e1] at hne; exact absurd e2 hne
      · rw [hn.minus_one] at h; exact absurd h until255
  · simp only at h
    rcases ite_cases h with ⟨hne, h⟩ | ⟨hne, h⟩
    · rcases ite_cases h with ⟨_, h⟩ | ⟨hle, h⟩
      · cases h
      · rcases ubj_size_cases hA hn (fun _ => by omega) with ⟨n, rfl, e1, e2, e3⟩ | ⟨_, e1⟩
        · rw [e1] at h
          rcases ite_cases h with ⟨h0, h⟩ | ⟨h0, h⟩
          · rcases ite_cases h with ⟨hN, h⟩ | ⟨hN, h⟩
            · obtain ⟨b, vs, rfl, hel, hl, he⟩ := ubjRepeat_sound (hf.shared t) _ _ _ _ hb h
              exact ⟨ns ++ 0x24 :: t :: ((ns' ++ 0x23 :: (ns'' ++ c :: l)) ++ b), vs, by simp,
                .arrType h2 (by rw [hl]; exact .mk h3 h4 hn) (by omega) (.inl rfl) ht h0 hN hel, he⟩
            · cases h
              obtain rfl : t = 0x4E := by omega
              exact ⟨ns ++ 0x24 :: 0x4E :: (ns' ++ 0x23 :: (ns'' ++ c :: l)), [], by simp,
                .arrNoops h2 (.mk h3 h4 hn) e3, by simp [eventsL]⟩
          · obtain rfl : t = 0 := by omega
            obtain ⟨b, vs, rfl, hel, hl, he⟩ := ubjRepeat_sound hf.own _ _ _ _ hb h
            exact ⟨ns ++ 0x24 :: 0 :: ((ns' ++ 0x23 :: (ns'' ++ c :: l)) ++ b), vs, by simp,
                .arrZero rfl h2 (by rw [hl]; exact .mk h3 h4 hn) (by omega) hel, he⟩
        · exact absurd e1 hne
    · rcases ubj_size_cases hA hn (fun e => absurd e hne) with ⟨n, rfl, e1, e2, e3⟩ | ⟨rfl, e1⟩
      · rw [e1] at hne; exact absurd e2 hne
      · rw [hn.minus_one] at h; exact absurd h until255

theorem ubjObj_sound {m : Mach} (hO : m.maxObj < 2 ^ 63) {A : Nat} {ex : Bool}
    {f : Option Nat → Bytes → Rd (List (Event Nat) × Bytes)}
    (hf : UbjSound A m.maxObj f) {s r : Bytes} {evs : List (Event Nat)} (hs : AllBytes s) (h : ubjObj m ex f s = .ok (evs, r)) :
    ∃ t ms, s = t ++ r ∧ Body A m.maxObj true 0x7B t (.obj ms) ∧ evs = eventsM ms := by
  rw [ubjObj] at h
  obtain ⟨⟨hd, r1⟩, h1, h⟩ := Rd.bind_ok_iff.1 h
  obtain ⟨hb, hh⟩ := ubjHead_sound hs h1
  simp only at h
  have until255 : ¬ ubjMembersUntil m ex f (r1.length + 2) (some 0xFF) r1 = .ok (evs, r) := fun h => by
    rw [ubjMembersUntil, if_neg (by simp)] at h
    obtain ⟨⟨k, r0⟩, h0, h⟩ := Rd.bind_ok_iff.1 h
    simp [ubjString, ubjInt] at h0
  rcases hh with ⟨_, rfl, rfl⟩ | ⟨ns, c, h2, h3, h4, h5, rfl, rfl⟩ | ⟨ns, ns', c, l, i, h2, h3, hn, rfl, rfl⟩ |
    ⟨ns, t, ns', ns'', c, l, i, h2, ht, h3, h4, hn, rfl, rfl⟩
  · rw [if_neg (by simp)] at h
    simp only [ubjMembersUntil, ubjString] at h
    cases h
  · rw [if_neg (by simp)] at h
    simp only at h
    obtain ⟨t, nn, ms, e, hel, hnn, he, hc5⟩ := ubjMembersUntil_sound hf _ _ _ _ _ hb h
    by_cases hc : c = 0x7D
    · obtain ⟨rfl, rfl⟩ := (hel [] (by simp [Noops])).2 hc
      obtain rfl := hc5 hc
      refine ⟨[] ++ (ns ++ [0x7D]), [], ?_, .obj .nil h2, he⟩
      rw [e]; simp
    · have h6 := (hel ns h2).1 hc
      refine ⟨(ns ++ t) ++ (nn ++ [0x7D]), ms, ?_, .obj h6 hnn, he⟩
      rw [e]; simp
  · simp only at h
    rcases ite_cases h with ⟨hne, h⟩ | ⟨hne, h⟩
    · rcases ite_cases h with ⟨_, h⟩ | ⟨hle, h⟩
      · cases h
      · rcases ubj_size_cases hO hn (fun _ => by omega) with ⟨n, rfl, e1, e2, e3⟩ | ⟨_, e1⟩
        · rw [e1] at h
          rw [if_neg (by simp)] at h
          obtain ⟨t, ms, rfl, hel, hl, he⟩ := ubjMembers_sound hf.own _ _ _ _ hb h
          exact ⟨(ns ++ 0x23 :: (ns' ++ c :: l)) ++ t, ms, by simp, .objCount (by rw [hl]; exact .mk h2 h3 hn) (by omega) hel, he⟩
        · exact absurd e1 hne
    · rcases ubj_size_cases hO hn (fun e => absurd e hne) with ⟨n, rfl, e1, e2, e3⟩ | ⟨rfl, e1⟩
      · rw [e1] at hne; exact absurd e2 hne
      · rw [hn.minus_one] at h; exact absurd h until255
  · simp only at h
    rcases ite_cases h with ⟨hne, h⟩ | ⟨hne, h⟩
    · rcases ite_cases h with ⟨_, h⟩ | ⟨hle, h⟩
      · cases h
      · rcases ubj_size_cases hO hn (fun _ => by omega) with ⟨n, rfl, e1, e2, e3⟩ | ⟨_, e1⟩
        · rw [e1] at h
          rcases ite_cases h with ⟨h0, h⟩ | ⟨h0, h⟩
          · obtain ⟨b, ms, rfl, hel, hl, he⟩ := ubjMembers_sound (hf.shared t) _ _ _ _ hb h
            exact ⟨ns ++ 0x24 :: t :: ((ns' ++ 0x23 :: (ns'' ++ c :: l)) ++ b), ms, by simp,
                .objType h2 (by rw [hl]; exact .mk h3 h4 hn) (by omega) (.inl rfl) ht h0 hel, he⟩
          · obtain rfl : t = 0 := by omega
            obtain ⟨b, ms, rfl, hel, hl, he⟩ := ubjMembers_sound hf.own _ _ _ _ hb h
            exact ⟨ns ++ 0x24 :: 0 :: ((ns' ++ 0x23 :: (ns'' ++ c :: l)) ++ b), ms, by simp,
                .objZero rfl h2 (by rw [hl]; exact .mk h3 h4 hn) (by omega) hel, he⟩
        · exact absurd e1 hne
    · rcases ubj_size_cases hO hn (fun e => absurd e hne) with ⟨n, rfl, e1, e2, e3⟩ | ⟨rfl, e1⟩
      · rw [e1] at hne; exact absurd e2 hne
      · rw [hn.minus_one] at h; exact absurd h until255

theorem ubjChar_sound {s r : Bytes} {evs : List (Event Nat)} (h : ubjChar s = .ok (evs, r)) :
    ∃ b, s = b :: r ∧ b < 128 ∧ evs = [.str [b]] := by
  cases s with
  | nil => cases h
  | cons b s =>
    simp only [ubjChar] at h
    rcases ite_cases h with ⟨_, h⟩ | ⟨hb, h⟩
    · cases h
    · cases h; exact ⟨b, rfl, by omega, rfl⟩

theorem ubjV_sound {m : Mach} (hA : m.maxArr < 2 ^ 63) (hO : m.maxObj < 2 ^ 63) (ex : Bool) :
    ∀ fuel, UbjSound m.maxArr m.maxObj (ubjV m ex fuel) := by
  intro fuel
  induction fuel with
  | zero => exact ⟨fun s => by simp [ubjV], fun c s r evs _ h => by simp [ubjV] at h⟩
  | succ fuel ih =>
    refine ⟨fun s => by simp [ubjV], fun c s r evs hs h => ?_⟩
    have num : ∀ (w : Nat) (f : Nat → Json Nat) (g : Nat → Event Nat),
        (∀ bs : Bytes, bs.length = w → (∀ b ∈ bs, b < 256) → Body m.maxArr m.maxObj true c bs (f (big bs))) →
        (∀ n, events (f n) = [g n]) →
        (getNumber m false w s).bind (fun p => .ok ([g p.1], p.2)) = .ok (evs, r) →
        ∃ t v, s = t ++ r ∧ Body m.maxArr m.maxObj true c t v ∧ evs = events v := by
      intro w f g hf hg h
      obtain ⟨⟨n, r1⟩, h1, h2⟩ := Rd.bind_ok_iff.1 h
      cases h2
      obtain ⟨bs, rfl, hl, rfl⟩ := getNumber_ok h1
      exact ⟨bs, f (big bs), rfl, hf bs hl hs.left, (hg _).symm⟩
    have int : ∀ (k w : Nat), k < 4 → w = 2 ^ k → c ≠ 0x55 → (∀ bs i, Ubj.IsInt w bs i → Num c bs i) →
        (getNumber m false w s).bind (fun p => .ok ([.int (asSigned w p.1)], p.2)) = .ok (evs, r) →
        ∃ t v, s = t ++ r ∧ Body m.maxArr m.maxObj true c t v ∧ evs = events v := fun k w hk hw hc hn h =>
      num w (fun n => .int (asSigned w n)) (fun n => .int (asSigned w n))
        (fun bs hl hb => .int hc (hn bs _ (ubj_asSigned hk hw hl hb))) (fun _ => rfl) h
    rw [ubjV] at h
    rcases ite_cases h with ⟨rfl, h⟩ | ⟨_, h⟩
    · cases h; exact ⟨[], _, rfl, .true, rfl⟩
    rcases ite_cases h with ⟨rfl, h⟩ | ⟨_, h⟩
    · cases h; exact ⟨[], _, rfl, .false, rfl⟩
    rcases ite_cases h with ⟨rfl, h⟩ | ⟨_, h⟩
    · cases h; exact ⟨[], _, rfl, .null, rfl⟩
    rcases ite_cases h with ⟨rfl, h⟩ | ⟨_, h⟩
    · refine num 1 .uint .uint (fun bs hl hb => ?_) (fun _ => rfl) h
      obtain ⟨b, rfl⟩ := List.length_eq_one_iff.1 hl
      rw [big_one]
      exact .uint (hb b (by simp))
    rcases ite_cases h with ⟨rfl, h⟩ | ⟨_, h⟩
    · exact int 0 1 (by decide) (by decide) (by decide) (fun _ _ => .int8) h
    rcases ite_cases h with ⟨rfl, h⟩ | ⟨_, h⟩
    · exact int 1 2 (by decide) (by decide) (by decide) (fun _ _ => .int16) h
    rcases ite_cases h with ⟨rfl, h⟩ | ⟨_, h⟩
    · exact int 2 4 (by decide) (by decide) (by decide) (fun _ _ => .int32) h
    rcases ite_cases h with ⟨rfl, h⟩ | ⟨_, h⟩
    · exact int 3 8 (by decide) (by decide) (by decide) (fun _ _ => .int64) h
    rcases ite_cases h with ⟨rfl, h⟩ | ⟨_, h⟩
    · exact num 4 (fun n => .float (readSingle n)) (fun n => .float (readSingle n)) (fun bs hl hb => .single hl hb) (fun _ => rfl) h
    rcases ite_cases h with ⟨rfl, h⟩ | ⟨_, h⟩
    · exact num 8 .float .float (fun bs hl hb => .double hl hb) (fun _ => rfl) h
    rcases ite_cases h with ⟨rfl, h⟩ | ⟨_, h⟩
    · obtain ⟨b, rfl, hb, rfl⟩ := ubjChar_sound h
      exact ⟨[b], _, rfl, .char hb, rfl⟩
    rcases ite_cases h with ⟨rfl, h⟩ | ⟨_, h⟩
    · obtain ⟨⟨t, r1⟩, h1, h2⟩ := Rd.bind_ok_iff.1 h
      cases h2
      cases s with
      | nil => cases h1
      | cons b s =>
        obtain ⟨c', p, e, ep, ht, _⟩ := ubjString_sound hs.tail h1
        cases e
        exact ⟨p, _, ep, .str ht, rfl⟩
    rcases ite_cases h with ⟨rfl, h⟩ | ⟨_, h⟩
    · obtain ⟨⟨e1, r1⟩, h1, h2⟩ := Rd.bind_ok_iff.1 h
      cases h2
      obtain ⟨t, vs, rfl, hb, rfl⟩ := ubjArr_sound hA ih hs h1
      exact ⟨t, _, rfl, hb, by simp [events]⟩
    rcases ite_cases h with ⟨rfl, h⟩ | ⟨_, h⟩
    · obtain ⟨⟨e1, r1⟩, h1, h2⟩ := Rd.bind_ok_iff.1 h
      cases h2
      obtain ⟨t, ms, rfl, hb, rfl⟩ := ubjObj_sound hO ih hs h1
      exact ⟨t, _, rfl, hb, by simp [events]⟩
    · cases h

end Verif.Json
