import Verif.Json.UbjLemmas

/-!
# Every text of UBJSON is read; the UBJSON reader always comes to an end; what it does at the end of the input
-/

namespace Verif.Json
open Spec Spec.Ubj

/-! ## Every text is read -/

theorem Spec.Ubj.Body.marker {A O : Nat} {lax : Bool} {c : Nat} {t : Bytes} {v : Json Nat} (h : Body A O lax c t v) :
    c ∈ markers := by
  cases h with
  | int _ h => exact h.marker
  | _ => decide

theorem marker_ne {c : Nat} (h : c ∈ markers) : c ≠ 0x4E ∧ c ≠ 0x24 ∧ c ≠ 0x23 ∧ c ≠ 0x5D ∧ c ≠ 0x7D ∧ c ≠ 0 := by
  simp only [markers, List.mem_cons, List.not_mem_nil, or_false] at h
  omega

/-- `f` reads the values of at most `L` bytes -/
def UbjReads (A O L : Nat) (f : Option Nat → Bytes → Rd (List (Event Nat) × Bytes)) : Prop :=
  ∀ c t v r, Body A O true c t v → t.length ≤ L → f (some c) (t ++ r) = .ok (events v, r)

/-- an element is read -/
def elemRead (f : Option Nat → Bytes → Rd (List (Event Nat) × Bytes)) (ty : Option Nat) (s : Bytes) :
    Rd (List (Event Nat) × Bytes) :=
  match ty with
  | none => f (getNoop s).1 (getNoop s).2
  | some c => f (some c) s

theorem elem_reads {A O L : Nat} {f : Option Nat → Bytes → Rd (List (Event Nat) × Bytes)} (hf : UbjReads A O L f)
    {ty : Option Nat} {t : Bytes} {v : Json Nat} (h : Elem A O true ty t v) (hl : t.length ≤ L) (r : Bytes) :
    elemRead f ty (t ++ r) = .ok (events v, r) := by
  cases h with
  | @own ns t c _ hns hb =>
    simp only [List.length_append, List.length_cons] at hl
    rw [elemRead, List.append_assoc, List.cons_append, getNoop_append _ hns (marker_ne hb.marker).1]
    exact hf _ _ _ _ hb (by omega)
  | shared hb => exact hf _ _ _ _ hb hl

theorem elems_reads {A O L : Nat} {f : Option Nat → Bytes → Rd (List (Event Nat) × Bytes)} (hf : UbjReads A O L f)
    {ty : Option Nat} : ∀ {vs : List (Json Nat)} {t : Bytes}, Elems A O true ty t vs → t.length ≤ L → ∀ r,
      ubjRepeat (elemRead f ty) vs.length (t ++ r) = .ok (eventsL vs, r)
  | [], _, h, _, r => by cases h; simp [ubjRepeat, eventsL]
  | v :: vs, _, h, hl, r => by
    cases h with
    | cons h hs =>
      simp only [List.length_append] at hl
      rw [List.length_cons, ubjRepeat, List.append_assoc, elem_reads hf h (by omega), Rd.ok_bind,
        elems_reads hf hs (by omega), Rd.ok_bind, eventsL]

theorem elems_until_reads {A O L : Nat} {f : Option Nat → Bytes → Rd (List (Event Nat) × Bytes)} (hf : UbjReads A O L f)
    {ns : Bytes} (hns : Noops ns) : ∀ {vs : List (Json Nat)} {t : Bytes}, Elems A O true none t vs → t.length ≤ L → ∀ r n,
      vs.length ≤ n → ubjUntil f n (getNoop (t ++ (ns ++ 0x5D :: r))).1 (getNoop (t ++ (ns ++ 0x5D :: r))).2 =
        .ok (eventsL vs, r)
  | [], _, h, _, r, n, _ => by
    cases h
    rw [List.nil_append, getNoop_append _ hns (by decide)]
    cases n <;> simp [ubjUntil, eventsL]
  | v :: vs, _, h, hl, r, n, hn => by
    cases h with
    | @cons _ _ ts _ _ h hs =>
      cases h with
      | @own ns' t c _ hns' hb =>
        simp only [List.length_append, List.length_cons] at hl hn
        obtain ⟨n, rfl⟩ : ∃ k, n = k + 1 := ⟨n - 1, by omega⟩
        have hc := marker_ne hb.marker
        have e : ns' ++ c :: t ++ ts ++ (ns ++ 0x5D :: r) = ns' ++ c :: (t ++ (ts ++ (ns ++ 0x5D :: r))) := by simp
        rw [e, getNoop_append _ hns' hc.1, ubjUntil, if_neg (by simp [hc.2.2.2.1])]
        simp only
        rw [hf _ _ _ _ hb (by omega), Rd.ok_bind, elems_until_reads hf hns hs (by omega) r n (by omega), Rd.ok_bind, eventsL]

theorem member_reads {A O L : Nat} {m : Mach} {ex : Bool} {f : Option Nat → Bytes → Rd (List (Event Nat) × Bytes)}
    (hf : UbjReads A O L f) {ty : Option Nat} {k s t : Bytes} {v : Json Nat} (hk : Text true k s)
    (hm : k.length ≤ m.maxStr) (h : Elem A O true ty t v) (hl : t.length ≤ L) (r : Bytes) :
    ubjMember m ex (elemRead f ty) (k ++ (t ++ r)) = .ok (.key s :: events v, r) := by
  obtain ⟨c, q, rfl, _, _, e⟩ := ubjString_read m ex hk hm (t ++ r)
  rw [ubjMember, List.cons_append, List.head?_cons, List.tail_cons, e, Rd.ok_bind, elem_reads hf h hl, Rd.ok_bind]

theorem pairs_reads {A O L : Nat} {m : Mach} {ex : Bool} {f : Option Nat → Bytes → Rd (List (Event Nat) × Bytes)}
    (hf : UbjReads A O L f) {ty : Option Nat} : ∀ {ms : List (Bytes × Json Nat)} {t : Bytes}, Pairs A O true false ty t ms →
      t.length ≤ L → t.length ≤ m.maxStr → ∀ r,
      ubjRepeat (ubjMember m ex (elemRead f ty)) ms.length (t ++ r) = .ok (eventsM ms, r)
  | [], _, h, _, _, r => by cases h; simp [ubjRepeat, eventsM]
  | (k, v) :: ms, _, h, hl, hm, r => by
    cases h with
    | cons _ hns hk h hs =>
      simp only [Bool.false_eq_true, false_or] at hns
      subst hns
      simp only [List.nil_append, List.length_append] at hl hm
      rw [List.length_cons, ubjRepeat, List.nil_append, List.append_assoc, List.append_assoc,
        member_reads hf hk (by omega) h (by omega), Rd.ok_bind, pairs_reads hf hs (by omega) (by omega), Rd.ok_bind, eventsM]
      simp

theorem pairs_until_reads {A O L : Nat} {m : Mach} {ex : Bool} {f : Option Nat → Bytes → Rd (List (Event Nat) × Bytes)}
    (hf : UbjReads A O L f) {ns : Bytes} (hns : Noops ns) : ∀ {ms : List (Bytes × Json Nat)} {t : Bytes},
      Pairs A O true true none t ms → t.length ≤ L → t.length ≤ m.maxStr → ∀ r n, ms.length ≤ n →
      ubjMembersUntil m ex f n (getNoop (t ++ (ns ++ 0x7D :: r))).1 (getNoop (t ++ (ns ++ 0x7D :: r))).2 =
        .ok (eventsM ms, r)
  | [], _, h, _, _, r, n, _ => by
    cases h
    rw [List.nil_append, getNoop_append _ hns (by decide)]
    cases n <;> simp [ubjMembersUntil, eventsM]
  | (s, v) :: ms, _, h, hl, hm, r, n, hn => by
    cases h with
    | @cons _ _ ns' k _ t ts _ _ hns' _ hk h hs =>
      simp only [List.length_append, List.length_cons] at hl hn hm
      obtain ⟨n, rfl⟩ : ∃ k, n = k + 1 := ⟨n - 1, by omega⟩
      obtain ⟨c, q, rfl, hc1, hc2, e⟩ := ubjString_read m ex hk (by omega) (t ++ (ts ++ (ns ++ 0x7D :: r)))
      have hc := marker_ne hc2
      have e1 : ns' ++ (c :: q ++ (t ++ ts)) ++ (ns ++ 0x7D :: r) = ns' ++ c :: (q ++ (t ++ (ts ++ (ns ++ 0x7D :: r)))) := by
        simp
      have he := elem_reads hf h (by omega) (ts ++ (ns ++ 0x7D :: r))
      simp only [elemRead] at he
      rw [e1, getNoop_append _ hns' hc1, ubjMembersUntil, if_neg (by simp [hc.2.2.2.2.1])]
      simp only
      rw [e, Rd.ok_bind, he, Rd.ok_bind, pairs_until_reads hf hns hs (by omega) (by omega) r n (by omega),
        Rd.ok_bind, eventsM]

/-- the size of a container is found -/
theorem ubjHead_count (m : Mach) {h : Bytes} {n : Nat} (hc : Count h n) (r : Bytes) :
    n ≠ ubjNone ∧ ∃ cur, ubjHead m (h ++ r) = .ok (⟨n, 0, cur⟩, r) := by
  cases hc with
  | @mk ns ns' l c _ h1 h2 hn =>
    have hr := hn.range
    refine ⟨by simp only [ubjNone]; omega, l.getLast?, ?_⟩
    have e : ns ++ 0x23 :: (ns' ++ c :: l) ++ r = ns ++ 0x23 :: (ns' ++ c :: (l ++ r)) := by simp
    rw [e, ubjHead, getNoop_append _ h1 (by decide)]
    simp only
    rw [if_neg (by decide), if_pos trivial, ubjSize_read m h2 hn, Rd.ok_bind]
    have : ((n : Int) % 2 ^ 64).toNat = n := by omega
    rw [this]

theorem ubjHead_type (m : Mach) {ns h : Bytes} {n t : Nat} (hns : Noops ns) (hc : Count h n) (r : Bytes) :
    n ≠ ubjNone ∧ ∃ cur, ubjHead m (ns ++ 0x24 :: t :: (h ++ r)) = .ok (⟨n, t, cur⟩, r) := by
  cases hc with
  | @mk ns1 ns' l c _ h1 h2 hn =>
    have hr := hn.range
    refine ⟨by simp only [ubjNone]; omega, l.getLast?, ?_⟩
    have e : ns1 ++ 0x23 :: (ns' ++ c :: l) ++ r = ns1 ++ 0x23 :: (ns' ++ c :: (l ++ r)) := by simp
    rw [e, ubjHead, getNoop_append _ hns (by decide)]
    simp only
    rw [if_pos trivial]
    simp only [ubjTyped]
    rw [getNoop_append _ h1 (by decide)]
    simp only
    rw [if_pos trivial, ubjSize_read m h2 hn, Rd.ok_bind]
    have : ((n : Int) % 2 ^ 64).toNat = n := by omega
    rw [this]

theorem Spec.Ubj.Count.length_pos {h : Bytes} {n : Nat} (hc : Count h n) : 2 ≤ h.length := by
  cases hc with
  | mk => simp only [List.length_append, List.length_cons]; omega

/-- no size is found -/
theorem ubjHead_open (m : Mach) {s r : Bytes} {c : Nat} (h : getNoop s = (some c, r)) (h1 : c ≠ 0x24) (h2 : c ≠ 0x23) :
    ubjHead m s = .ok (⟨ubjNone, 0, some c⟩, r) := by
  rw [ubjHead, h]
  simp only
  rw [if_neg h1, if_neg h2]

theorem elems_length_own {A O : Nat} {lax : Bool} : ∀ {vs : List (Json Nat)} {t : Bytes}, Elems A O lax none t vs →
    vs.length ≤ t.length
  | [], _, h => by simp
  | v :: vs, _, h => by
    cases h with
    | cons h hs =>
      have := elems_length_own hs
      cases h with
      | own => simp only [List.length_append, List.length_cons]; omega

theorem pairs_length_own {A O : Nat} {lax o : Bool} {ty : Option Nat} : ∀ {ms : List (Bytes × Json Nat)} {t : Bytes},
    Pairs A O lax o ty t ms → ms.length ≤ t.length
  | [], _, h => by simp
  | v :: vs, _, h => by
    cases h with
    | cons _ _ hk h hs =>
      have := pairs_length_own hs
      cases hk with
      | mk => simp only [List.length_append, List.length_cons]; omega

/-- the first byte of the elements, and of what follows -/
theorem elems_first {A O : Nat} {lax : Bool} {vs : List (Json Nat)} {t ns : Bytes} (hns : Noops ns)
    (h : Elems A O lax none t vs) (r : Bytes) : ∃ c q, getNoop (t ++ (ns ++ 0x5D :: r)) = (some c, q) ∧ c ≠ 0x24 ∧ c ≠ 0x23 ∧
      vs.length ≤ q.length + 2 := by
  cases h with
  | nil => exact ⟨0x5D, r, getNoop_append _ hns (by decide), by decide, by decide, by simp⟩
  | @cons _ _ ts _ _ h hs =>
    cases h with
    | @own ns' t c _ hns' hb =>
      have hc := marker_ne hb.marker
      have := elems_length_own hs
      refine ⟨c, t ++ (ts ++ (ns ++ 0x5D :: r)), ?_, hc.2.1, hc.2.2.1, ?_⟩
      · have e : ns' ++ c :: t ++ ts ++ (ns ++ 0x5D :: r) = ns' ++ c :: (t ++ (ts ++ (ns ++ 0x5D :: r))) := by simp
        rw [e, getNoop_append _ hns' hc.1]
      · simp only [List.length_append, List.length_cons]; omega

theorem pairs_first {A O : Nat} {lax : Bool} {ms : List (Bytes × Json Nat)} {t ns : Bytes} (hns : Noops ns)
    (h : Pairs A O lax true none t ms) (r : Bytes) : ∃ c q, getNoop (t ++ (ns ++ 0x7D :: r)) = (some c, q) ∧
      c ≠ 0x24 ∧ c ≠ 0x23 ∧ ms.length ≤ q.length + 2 := by
  cases h with
  | nil => exact ⟨0x7D, r, getNoop_append _ hns (by decide), by decide, by decide, by simp⟩
  | @cons _ _ ns' k s t ts _ _ hns' _ hk h hs =>
    cases hk with
    | @mk c l _ i hn =>
      have hc := marker_ne hn.marker
      have := pairs_length_own hs
      refine ⟨c, l ++ (s ++ (t ++ (ts ++ (ns ++ 0x7D :: r)))), ?_, hc.2.1, hc.2.2.1, ?_⟩
      · have e : ns' ++ (c :: (l ++ s) ++ (t ++ ts)) ++ (ns ++ 0x7D :: r) =
            ns' ++ c :: (l ++ (s ++ (t ++ (ts ++ (ns ++ 0x7D :: r))))) := by simp
        rw [e, getNoop_append _ hns' hc.1]
      · simp only [List.length_append, List.length_cons]; omega

theorem ubjV_reads (m : Mach) (ex : Bool) : ∀ fuel L, L + 1 ≤ fuel → L ≤ m.maxStr →
    UbjReads m.maxArr m.maxObj L (ubjV m ex fuel) := by
  intro fuel
  induction fuel with
  | zero => intro L h; omega
  | succ fuel ih =>
    intro L hf hm c t v r h hl
    have int : ∀ {c' : Nat} {bs : Bytes} {i : Int}, c' ≠ 0x55 → Num c' bs i →
        ubjV m ex (fuel + 1) (some c') (bs ++ r) = .ok ([.int i], r) := by
      intro c' bs i hc hn
      cases hn with
      | uint8 => exact absurd rfl hc
      | int8 h => rw [ubjV]; branch; rw [getNumber_append m h.1, Rd.ok_bind, ubj_only (k := 0) (by decide) (by decide) h]
      | int16 h => rw [ubjV]; branch; rw [getNumber_append m h.1, Rd.ok_bind, ubj_only (k := 1) (by decide) (by decide) h]
      | int32 h => rw [ubjV]; branch; rw [getNumber_append m h.1, Rd.ok_bind, ubj_only (k := 2) (by decide) (by decide) h]
      | int64 h => rw [ubjV]; branch; rw [getNumber_append m h.1, Rd.ok_bind, ubj_only (k := 3) (by decide) (by decide) h]
    have arr : ∀ {bs : Bytes} {vs : List (Json Nat)}, ubjArr m (ubjV m ex fuel) (bs ++ r) = .ok (eventsL vs, r) →
        ubjV m ex (fuel + 1) (some 0x5B) (bs ++ r) = .ok (events (.arr vs), r) := by
      intro bs vs h
      rw [ubjV]; branch; rw [h, Rd.ok_bind, events]
    have obj : ∀ {bs : Bytes} {ms : List (Bytes × Json Nat)}, ubjObj m ex (ubjV m ex fuel) (bs ++ r) = .ok (eventsM ms, r) →
        ubjV m ex (fuel + 1) (some 0x7B) (bs ++ r) = .ok (events (.obj ms), r) := by
      intro bs vs h
      rw [ubjV]; branch; rw [h, Rd.ok_bind, events]
    cases h with
    | true => rw [ubjV]; branch; rfl
    | false => rw [ubjV]; branch; rfl
    | null => rw [ubjV]; branch; rfl
    | @uint b hb => rw [ubjV]; branch; rw [getNumber_append m (bs := [b]) (w := 1) rfl, big_one]; rfl
    | int hc hn => exact int hc hn
    | single hl hb => rw [ubjV]; branch; rw [getNumber_append m hl]; rfl
    | double hl hb => rw [ubjV]; branch; rw [getNumber_append m hl]; rfl
    | @char b hb => rw [ubjV]; branch; rw [List.singleton_append, ubjChar]; branch; rfl
    | str ht =>
      obtain ⟨c, q, rfl, _, _, e⟩ := ubjString_read m ex ht (by omega) r
      rw [ubjV]; branch
      rw [List.cons_append, List.head?_cons, List.tail_cons, e]; rfl
    | @arr t ns vs ht hns =>
      simp only [List.length_append, List.length_cons, List.length_nil] at hl
      refine arr ?_
      have e : t ++ (ns ++ [0x5D]) ++ r = t ++ (ns ++ 0x5D :: r) := by simp
      obtain ⟨c, q, h1, h2, h3, h4⟩ := elems_first hns ht r
      have h5 := elems_until_reads (ih (L - 1) (by omega) (by omega)) hns ht (by omega) r (q.length + 2) h4
      rw [h1] at h5
      rw [e, ubjArr, ubjHead_open m h1 h2 h3, Rd.ok_bind, if_neg (by simp)]
      exact h5
    | @arrCount h t vs hc hA ht =>
      simp only [List.length_append] at hl
      have := hc.length_pos
      refine arr ?_
      obtain ⟨h1, cur, h2⟩ := ubjHead_count m hc (t ++ r)
      rw [List.append_assoc, ubjArr, h2, Rd.ok_bind]
      simp only
      rw [if_pos h1, if_neg (by omega), if_neg (by simp)]
      exact elems_reads (ih (L - 1) (by omega) (by omega)) ht (by omega) r
    | @arrType ns h t c vs hns hc hA _ _ h0 hN ht =>
      simp only [List.length_append, List.length_cons] at hl
      refine arr ?_
      obtain ⟨h1, cur, h2⟩ := ubjHead_type m (t := c) hns hc (t ++ r)
      have e : ns ++ 0x24 :: c :: (h ++ t) ++ r = ns ++ 0x24 :: c :: (h ++ (t ++ r)) := by simp
      rw [e, ubjArr, h2, Rd.ok_bind]
      simp only
      rw [if_pos h1, if_neg (by omega), if_pos h0, if_pos hN]
      exact elems_reads (ih (L - 1) (by omega) (by omega)) ht (by omega) r
    | @arrNoops ns h n hns hc hA =>
      refine arr ?_
      obtain ⟨h1, cur, h2⟩ := ubjHead_type m (t := 0x4E) hns hc r
      have e : ns ++ 0x24 :: 0x4E :: h ++ r = ns ++ 0x24 :: 0x4E :: (h ++ r) := by simp
      rw [e, ubjArr, h2, Rd.ok_bind]
      simp only
      rw [if_pos h1, if_neg (by omega), if_pos (by decide), if_neg (by simp), eventsL]
    | @arrZero ns h t vs _ hns hc hA ht =>
      simp only [List.length_append, List.length_cons] at hl
      refine arr ?_
      obtain ⟨h1, cur, h2⟩ := ubjHead_type m (t := 0) hns hc (t ++ r)
      have e : ns ++ 0x24 :: 0 :: (h ++ t) ++ r = ns ++ 0x24 :: 0 :: (h ++ (t ++ r)) := by simp
      rw [e, ubjArr, h2, Rd.ok_bind]
      simp only
      rw [if_pos h1, if_neg (by omega), if_neg (by simp)]
      exact elems_reads (ih (L - 1) (by omega) (by omega)) ht (by omega) r
    | @obj t ns ms ht hns =>
      simp only [List.length_append, List.length_cons, List.length_nil] at hl
      refine obj ?_
      have e : t ++ (ns ++ [0x7D]) ++ r = t ++ (ns ++ 0x7D :: r) := by simp
      obtain ⟨c, q, h1, h2, h3, h4⟩ := pairs_first hns ht r
      have h5 := pairs_until_reads (m := m) (ex := ex) (ih (L - 1) (by omega) (by omega)) hns ht (by omega) (by omega) r
        (q.length + 2) h4
      rw [h1] at h5
      rw [e, ubjObj, ubjHead_open m h1 h2 h3, Rd.ok_bind, if_neg (by simp)]
      exact h5
    | @objCount h t ms hc hO ht =>
      simp only [List.length_append] at hl
      have := hc.length_pos
      refine obj ?_
      obtain ⟨h1, cur, h2⟩ := ubjHead_count m hc (t ++ r)
      rw [List.append_assoc, ubjObj, h2, Rd.ok_bind]
      simp only
      rw [if_pos h1, if_neg (by omega), if_neg (by simp)]
      exact pairs_reads (ih (L - 1) (by omega) (by omega)) ht (by omega) (by omega) r
    | @objType ns h t c ms hns hc hO _ _ h0 ht =>
      simp only [List.length_append, List.length_cons] at hl
      refine obj ?_
      obtain ⟨h1, cur, h2⟩ := ubjHead_type m (t := c) hns hc (t ++ r)
      have e : ns ++ 0x24 :: c :: (h ++ t) ++ r = ns ++ 0x24 :: c :: (h ++ (t ++ r)) := by simp
      rw [e, ubjObj, h2, Rd.ok_bind]
      simp only
      rw [if_pos h1, if_neg (by omega), if_pos h0]
      exact pairs_reads (ih (L - 1) (by omega) (by omega)) ht (by omega) (by omega) r
    | @objZero ns h t ms _ hns hc hO ht =>
      simp only [List.length_append, List.length_cons] at hl
      refine obj ?_
      obtain ⟨h1, cur, h2⟩ := ubjHead_type m (t := 0) hns hc (t ++ r)
      have e : ns ++ 0x24 :: 0 :: (h ++ t) ++ r = ns ++ 0x24 :: 0 :: (h ++ (t ++ r)) := by simp
      rw [e, ubjObj, h2, Rd.ok_bind]
      simp only
      rw [if_pos h1, if_neg (by omega), if_neg (by simp)]
      exact pairs_reads (ih (L - 1) (by omega) (by omega)) ht (by omega) (by omega) r

/-! ## How the reader ends -/

/-- the ways the reader can end, with at most `n` bytes left -/
def UbjEnds (m : Mach) (ex : Bool) (L n : Nat) (x : Rd (α × Bytes)) : Prop :=
  Ends m ex L n x ∧ ∀ a r, x = .ok (a, r) → AllBytes r

theorem UbjEnds.bind {m : Mach} {ex : Bool} {L n n' : Nat} {x : Rd (α × Bytes)} {f : α × Bytes → Rd (β × Bytes)}
    (h : UbjEnds m ex L n x) (hf : ∀ a r, r.length ≤ n → AllBytes r → UbjEnds m ex L n' (f (a, r))) :
    UbjEnds m ex L n' (x.bind f) := by
  match x, h with
  | .ok (a, r), h => exact hf a r h.1 (h.2 a r rfl)
  | .fail id, h => exact ⟨h.1, nofun⟩
  | .threw k, h => exact ⟨h.1, nofun⟩

theorem UbjEnds.ite {m : Mach} {ex : Bool} {L n : Nat} {p : Prop} [Decidable p] {x y : Rd (α × Bytes)}
    (hx : p → UbjEnds m ex L n x) (hy : ¬ p → UbjEnds m ex L n y) : UbjEnds m ex L n (if p then x else y) := by
  by_cases h : p
  · rw [if_pos h]; exact hx h
  · rw [if_neg h]; exact hy h

theorem UbjEnds.ok {m : Mach} {ex : Bool} {L n : Nat} {a : α} {r : Bytes} (h : r.length ≤ n) (hb : AllBytes r) :
    UbjEnds m ex L n (.ok (a, r)) := ⟨h, fun _ _ e => by cases e; exact hb⟩

theorem UbjEnds.fail {m : Mach} {ex : Bool} {L n id : Nat} (h : id = 110 ∨ id = 112 ∨ id = 113) :
    UbjEnds m ex L n (.fail id : Rd (α × Bytes)) := ⟨h, nofun⟩

theorem UbjEnds.mono {m : Mach} {ex : Bool} {L n n' : Nat} (hn : n ≤ n') {x : Rd (α × Bytes)} (h : UbjEnds m ex L n x) :
    UbjEnds m ex L n' x := ⟨h.1.mono hn, h.2⟩

theorem ubjNumber_ends (m : Mach) (ex : Bool) (L : Nat) {w : Nat} {s : Bytes} (hs : AllBytes s) (g : Nat → β) :
    UbjEnds m ex L s.length ((getNumber m false w s).bind fun p => .ok (g p.1, p.2)) := by
  rcases getNumber_cases m w s with ⟨bs, r, rfl, hl, e⟩ | e
  · rw [e]; exact .ok (by simp) hs.right
  · rw [e]; exact .fail (.inl rfl)

theorem ubjInt_ends (m : Mach) (ex : Bool) (L c : Nat) {s : Bytes} (hs : AllBytes s) :
    UbjEnds m ex L s.length (ubjInt m c s) := by
  rw [ubjInt]
  repeat' refine UbjEnds.ite (fun _ => ubjNumber_ends m ex L hs _) fun _ => ?_
  exact .fail (.inr (.inr rfl))

theorem ubjString_ends (m : Mach) (ex : Bool) (L : Nat) (c : Option Nat) {s : Bytes} (hs : AllBytes s) (hL : s.length ≤ L) :
    UbjEnds m ex L s.length (ubjString m ex c s) := by
  match c with
  | none => exact .fail (.inl rfl)
  | some c =>
    simp only [ubjString]
    have h1 := ubjInt_ends m ex L c hs
    cases e : ubjInt m c s with
    | running => rw [e] at h1; exact h1.1.elim
    | fail id => rw [e] at h1; exact ⟨h1.1, nofun⟩
    | threw k => rw [e] at h1; exact ⟨h1.1, nofun⟩
    | ok p =>
      obtain ⟨i, r⟩ := p
      rw [e] at h1
      obtain ⟨l, rfl, hn⟩ := ubjInt_sound hs e
      have hr := hn.range
      simp only [List.length_append] at hL
      refine ⟨(takeString_ends m ex (s := r) (by simp only; omega) (by omega)).mono (by simp), fun a r' e' => ?_⟩
      obtain ⟨rfl, _⟩ := takeString_ok e'
      exact hs.right.right

theorem ubjSize_ends (m : Mach) (ex : Bool) (L : Nat) {s : Bytes} (hs : AllBytes s) :
    UbjEnds m ex L (s.length - 1) (ubjSize m s) := by
  rw [ubjSize]
  rcases getNoop_cases s with ⟨_, e⟩ | ⟨ns, c, r, _, _, rfl, e⟩
  · rw [e]; exact .fail (.inr (.inr rfl))
  · rw [e]
    refine UbjEnds.bind (ubjInt_ends m ex L c hs.right.tail) fun a r' h hb => .ok ?_ hb
    simp only [List.length_append, List.length_cons]
    omega

theorem ubjHead_ends (m : Mach) (ex : Bool) (L : Nat) {s : Bytes} (hs : AllBytes s) :
    UbjEnds m ex L (s.length - 1) (ubjHead m s) := by
  rw [ubjHead]
  rcases getNoop_cases s with ⟨_, e⟩ | ⟨ns, c, r, _, _, rfl, e⟩
  · rw [e]; exact .ok (by simp) (by simp [AllBytes])
  · rw [e]
    have hl : r.length ≤ (ns ++ c :: r).length - 1 := by simp only [List.length_append, List.length_cons]; omega
    refine UbjEnds.ite (fun _ => ?_) fun _ => UbjEnds.ite (fun _ => ?_) fun _ => .ok hl hs.right.tail
    · have hb := hs.right.tail
      match r, hb with
      | [], _ => exact .fail (.inl rfl)
      | t :: r, hb =>
        simp only [ubjTyped]
        rcases getNoop_cases r with ⟨_, e⟩ | ⟨ns', c', r', _, _, rfl, e⟩
        · rw [e]; exact .fail (.inl rfl)
        · rw [e]
          refine UbjEnds.ite (fun _ => ?_) fun _ => .fail (.inr (.inl rfl))
          refine UbjEnds.bind (ubjSize_ends m ex L hb.tail.right.tail) fun a r'' h hb => .ok ?_ hb
          simp only [List.length_append, List.length_cons]
          omega
    · refine UbjEnds.bind (ubjSize_ends m ex L hs.right.tail) fun a r'' h hb => .ok ?_ hb
      simp only
      omega

/-- `f` comes to an end for inputs of at most `K` bytes -/
def UbjStops (m : Mach) (ex : Bool) (L K : Nat) (f : Option Nat → Bytes → Rd (List (Event Nat) × Bytes)) : Prop :=
  (∀ s, f none s = .fail 110) ∧ ∀ c s, AllBytes s → s.length ≤ K → UbjEnds m ex L s.length (f (some c) s)

theorem UbjStops.own {m : Mach} {ex : Bool} {L K : Nat} {f : Option Nat → Bytes → Rd (List (Event Nat) × Bytes)}
    (h : UbjStops m ex L K f) {s : Bytes} (hs : AllBytes s) (hK : s.length ≤ K) :
    UbjEnds m ex L s.length (f (getNoop s).1 (getNoop s).2) := by
  rcases getNoop_cases s with ⟨_, e⟩ | ⟨ns, c, r, _, _, rfl, e⟩
  · rw [e, h.1]; exact .fail (.inl rfl)
  · rw [e]
    simp only [List.length_append, List.length_cons] at hK
    exact (h.2 c r hs.right.tail (by omega)).mono (by simp only [List.length_append, List.length_cons]; omega)

theorem ubjRepeat_ends {m : Mach} {ex : Bool} {L K : Nat} {f : Bytes → Rd (List (Event Nat) × Bytes)}
    (hf : ∀ s, AllBytes s → s.length ≤ K → UbjEnds m ex L s.length (f s)) :
    ∀ (n : Nat) (s : Bytes), AllBytes s → s.length ≤ K → UbjEnds m ex L s.length (ubjRepeat f n s)
  | 0, s, hs, _ => .ok (Nat.le_refl _) hs
  | n + 1, s, hs, hK =>
    UbjEnds.bind (hf s hs hK) fun _ r h hb => UbjEnds.bind (ubjRepeat_ends hf n r hb (by omega)) fun _ r' h' hb' =>
      .ok (by simp only; omega) hb'

theorem ubjMember_ends {m : Mach} {ex : Bool} {L K : Nat} (hKL : K ≤ L) {f : Bytes → Rd (List (Event Nat) × Bytes)}
    (hf : ∀ s, AllBytes s → s.length ≤ K → UbjEnds m ex L s.length (f s)) (s : Bytes) (hs : AllBytes s) (hK : s.length ≤ K) :
    UbjEnds m ex L s.length (ubjMember m ex f s) := by
  rw [ubjMember]
  have ht : AllBytes s.tail := fun b hb => hs b (List.mem_of_mem_tail hb)
  refine UbjEnds.bind (ubjString_ends m ex L s.head? ht (by simp; omega)) fun a r h hb => ?_
  rw [List.length_tail] at h
  exact UbjEnds.bind (hf r hb (by omega)) fun a' r' h' hb' => .ok (by simp only; omega) hb'

theorem ubjUntil_ends {m : Mach} {ex : Bool} {L K : Nat} {f : Option Nat → Bytes → Rd (List (Event Nat) × Bytes)}
    (hf : UbjStops m ex L K f) : ∀ (n : Nat) (cur : Option Nat) (s : Bytes), AllBytes s → s.length ≤ K →
      (s.length + 2 ≤ n ∨ (cur = none ∧ 1 ≤ n)) → UbjEnds m ex L s.length (ubjUntil f n cur s)
  | n, cur, s, hs, hK, hn => by
    rw [ubjUntil.eq_def]
    refine UbjEnds.ite (fun _ => .ok (Nat.le_refl _) hs) fun _ => ?_
    obtain ⟨n, rfl⟩ : ∃ k, n = k + 1 := ⟨n - 1, by omega⟩
    simp only
    cases cur with
    | none => rw [hf.1]; exact .fail (.inl rfl)
    | some c =>
      replace hn : s.length + 2 ≤ n + 1 := hn.elim id fun h => nomatch h.1
      refine UbjEnds.bind (hf.2 c s hs hK) fun a r h hb => ?_
      simp only
      have : UbjEnds m ex L r.length (ubjUntil f n (getNoop r).1 (getNoop r).2) := by
        rcases getNoop_cases r with ⟨_, e⟩ | ⟨ns, c', r', _, _, rfl, e⟩
        · rw [e]
          exact (ubjUntil_ends hf n none [] (by simp [AllBytes]) (by simp) (.inr ⟨rfl, by omega⟩)).mono (by simp)
        · rw [e]
          simp only [List.length_append, List.length_cons] at h
          exact (ubjUntil_ends hf n (some c') r' hb.right.tail (by omega) (.inl (by omega))).mono
            (by simp only [List.length_append, List.length_cons]; omega)
      exact UbjEnds.bind this fun a' r' h' hb' => .ok (by simp only; omega) hb'

theorem ubjMembersUntil_ends {m : Mach} {ex : Bool} {L K : Nat} (hKL : K ≤ L)
    {f : Option Nat → Bytes → Rd (List (Event Nat) × Bytes)}
    (hf : UbjStops m ex L K f) : ∀ (n : Nat) (cur : Option Nat) (s : Bytes), AllBytes s → s.length ≤ K →
      (s.length + 2 ≤ n ∨ (cur = none ∧ 1 ≤ n)) → UbjEnds m ex L s.length (ubjMembersUntil m ex f n cur s)
  | n, cur, s, hs, hK, hn => by
    rw [ubjMembersUntil.eq_def]
    refine UbjEnds.ite (fun _ => .ok (Nat.le_refl _) hs) fun _ => ?_
    obtain ⟨n, rfl⟩ : ∃ k, n = k + 1 := ⟨n - 1, by omega⟩
    simp only
    cases cur with
    | none => exact .fail (.inl rfl)
    | some c =>
      replace hn : s.length + 2 ≤ n + 1 := hn.elim id fun h => nomatch h.1
      refine UbjEnds.bind (ubjString_ends m ex L (some c) hs (by omega)) fun k r0 h0 hb0 => ?_
      refine UbjEnds.bind (hf.own (s := r0) hb0 (by omega)) fun a r h hb => ?_
      simp only
      have : UbjEnds m ex L r.length (ubjMembersUntil m ex f n (getNoop r).1 (getNoop r).2) := by
        rcases getNoop_cases r with ⟨_, e⟩ | ⟨ns, c', r', _, _, rfl, e⟩
        · rw [e]
          exact (ubjMembersUntil_ends hKL hf n none [] (by simp [AllBytes]) (by simp) (.inr ⟨rfl, by omega⟩)).mono (by simp)
        · rw [e]
          simp only [List.length_append, List.length_cons] at h
          exact (ubjMembersUntil_ends hKL hf n (some c') r' hb.right.tail (by omega) (.inl (by omega))).mono
            (by simp only [List.length_append, List.length_cons]; omega)
      exact UbjEnds.bind this fun a' r' h' hb' => .ok (by simp only; omega) hb'

theorem threw_ends {m : Mach} {ex : Bool} {L n k : Nat} (hk : k ≠ ubjNone) (hk2 : k < 2 ^ 64)
    (h : m.maxArr < k ∨ m.maxObj < k) : UbjEnds m ex L n (.threw "out_of_range.408" : Rd (α × Bytes)) := by
  refine ⟨.inl ⟨rfl, ?_⟩, nofun⟩
  simp only [ubjNone] at hk
  simp only [noSize]
  omega

theorem ubjHead_size {m : Mach} {s r : Bytes} {h : UbjHead} (hs : AllBytes s) (hh : ubjHead m s = .ok (h, r)) :
    h.size < 2 ^ 64 ∧ (h.cur = none → r = [] ∨ h.size ≠ ubjNone) ∧ r.length + 1 ≤ s.length ∨ (h.cur = none ∧ r = [] ∧ h.size = ubjNone) := by
  rcases (ubjHead_sound hs hh).2 with ⟨_, rfl, rfl⟩ | ⟨ns, c, h2, h3, h4, h5, rfl, rfl⟩ |
    ⟨ns, ns', c, l, i, h2, h3, hn, rfl, rfl⟩ | ⟨ns, t, ns', ns'', c, l, i, h2, ht, h3, h4, hn, rfl, rfl⟩
  · exact .inr ⟨rfl, rfl, rfl⟩
  · exact .inl ⟨by simp [ubjNone], by simp, by simp only [List.length_append, List.length_cons]; omega⟩
  · refine .inl ⟨by simp only; omega, ?_, by simp only [List.length_append, List.length_cons]; omega⟩
    intro hl
    right
    intro hN
    simp only at hl hN
    have hr := hn.range
    obtain rfl : i = -1 := by simp only [ubjNone] at hN; omega
    rw [hn.minus_one] at hl
    cases hl
  · refine .inl ⟨by simp only; omega, ?_, by simp only [List.length_append, List.length_cons]; omega⟩
    intro hl
    right
    intro hN
    simp only at hl hN
    have hr := hn.range
    obtain rfl : i = -1 := by simp only [ubjNone] at hN; omega
    rw [hn.minus_one] at hl
    cases hl

theorem ubjArr_ends {m : Mach} {ex : Bool} {L K : Nat} {f : Option Nat → Bytes → Rd (List (Event Nat) × Bytes)}
    (hf : UbjStops m ex L K f) {s : Bytes} (hs : AllBytes s) (hK : s.length ≤ K + 1) :
    UbjEnds m ex L s.length (ubjArr m f s) := by
  rw [ubjArr]
  have h1 := ubjHead_ends m ex L hs
  cases e : ubjHead m s with
  | running => rw [e] at h1; exact h1.1.elim
  | fail id => rw [e] at h1; exact ⟨h1.1, nofun⟩
  | threw k => rw [e] at h1; exact ⟨h1.1, nofun⟩
  | ok p =>
    obtain ⟨h, r⟩ := p
    rw [e] at h1
    have hb := h1.2 _ _ rfl
    rw [Rd.ok_bind]
    simp only
    rcases ubjHead_size hs e with ⟨h2, _, h3⟩ | ⟨h2, rfl, h3⟩
    · have hm : r.length ≤ s.length := by omega
      refine UbjEnds.ite (fun hne => UbjEnds.ite (fun hlt => threw_ends hne h2 (.inl hlt)) fun _ =>
        UbjEnds.ite (fun _ => UbjEnds.ite (fun _ => ?_) fun _ => .ok hm hb) fun _ => ?_) fun _ => ?_
      · exact (ubjRepeat_ends (K := K) (fun s hs h => hf.2 _ s hs h) _ r hb (by omega)).mono hm
      · exact (ubjRepeat_ends (K := K) (fun s hs h => hf.own hs h) _ r hb (by omega)).mono hm
      · exact (ubjUntil_ends hf _ _ r hb (by omega) (.inl (by omega))).mono hm
    · rw [if_neg (by simp [h3]), h2]
      exact (ubjUntil_ends hf _ none [] hb (by simp) (.inl (by simp))).mono (by simp)

theorem ubjObj_ends {m : Mach} {ex : Bool} {L K : Nat} (hKL : K ≤ L) {f : Option Nat → Bytes → Rd (List (Event Nat) × Bytes)}
    (hf : UbjStops m ex L K f) {s : Bytes} (hs : AllBytes s) (hK : s.length ≤ K + 1) :
    UbjEnds m ex L s.length (ubjObj m ex f s) := by
  rw [ubjObj]
  have h1 := ubjHead_ends m ex L hs
  cases e : ubjHead m s with
  | running => rw [e] at h1; exact h1.1.elim
  | fail id => rw [e] at h1; exact ⟨h1.1, nofun⟩
  | threw k => rw [e] at h1; exact ⟨h1.1, nofun⟩
  | ok p =>
    obtain ⟨h, r⟩ := p
    rw [e] at h1
    have hb := h1.2 _ _ rfl
    rw [Rd.ok_bind]
    simp only
    rcases ubjHead_size hs e with ⟨h2, _, h3⟩ | ⟨h2, rfl, h3⟩
    · have hm : r.length ≤ s.length := by omega
      refine UbjEnds.ite (fun hne => UbjEnds.ite (fun hlt => threw_ends hne h2 (.inr hlt)) fun _ =>
        UbjEnds.ite (fun _ => ?_) fun _ => ?_) fun _ => ?_
      · exact (ubjRepeat_ends (ubjMember_ends hKL fun s hs h => hf.2 _ s hs h) _ r hb (by omega)).mono hm
      · exact (ubjRepeat_ends (ubjMember_ends hKL fun s hs h => hf.own hs h) _ r hb (by omega)).mono hm
      · exact (ubjMembersUntil_ends hKL hf _ _ r hb (by omega) (.inl (by omega))).mono hm
    · rw [if_neg (by simp [h3]), h2]
      exact (ubjMembersUntil_ends hKL hf _ none [] hb (by simp) (.inl (by simp))).mono (by simp)

theorem ubjV_ends (m : Mach) (ex : Bool) (L : Nat) : ∀ fuel K, K + 1 ≤ fuel → K ≤ L → UbjStops m ex L K (ubjV m ex fuel) := by
  intro fuel
  induction fuel with
  | zero => intro K h; omega
  | succ fuel ih =>
    intro K hf hL
    refine ⟨fun s => by simp [ubjV], fun c s hs hK => ?_⟩
    rw [ubjV]
    refine UbjEnds.ite (fun _ => .ok (Nat.le_refl _) hs) fun _ => UbjEnds.ite (fun _ => .ok (Nat.le_refl _) hs) fun _ =>
      UbjEnds.ite (fun _ => .ok (Nat.le_refl _) hs) fun _ => ?_
    refine UbjEnds.ite (fun _ => ubjNumber_ends m ex L hs fun n => [Event.uint n]) fun _ => ?_
    refine UbjEnds.ite (fun _ => ubjNumber_ends m ex L hs fun n => [Event.int (asSigned 1 n)]) fun _ => ?_
    refine UbjEnds.ite (fun _ => ubjNumber_ends m ex L hs fun n => [Event.int (asSigned 2 n)]) fun _ => ?_
    refine UbjEnds.ite (fun _ => ubjNumber_ends m ex L hs fun n => [Event.int (asSigned 4 n)]) fun _ => ?_
    refine UbjEnds.ite (fun _ => ubjNumber_ends m ex L hs fun n => [Event.int (asSigned 8 n)]) fun _ => ?_
    refine UbjEnds.ite (fun _ => ubjNumber_ends m ex L hs fun n => [Event.float (readSingle n)]) fun _ => ?_
    refine UbjEnds.ite (fun _ => ubjNumber_ends m ex L hs fun n => [Event.float n]) fun _ => ?_
    refine UbjEnds.ite (fun _ => ?_) fun _ => UbjEnds.ite (fun _ => ?_) fun _ => ?_
    · match s, hs with
      | [], _ => exact .fail (.inl rfl)
      | b :: s, hs =>
        exact UbjEnds.ite (fun _ => .fail (.inr (.inr rfl))) fun _ => .ok (by simp) hs.tail
    · have ht : AllBytes s.tail := fun b hb => hs b (List.mem_of_mem_tail hb)
      refine UbjEnds.bind (ubjString_ends m ex L s.head? ht (by simp; omega)) fun a r h hb => .ok ?_ hb
      rw [List.length_tail] at h
      simp only; omega
    by_cases h0 : s = []
    · subst h0
      have e : ∀ m', ubjHead m' [] = .ok (⟨ubjNone, 0, none⟩, []) := fun _ => rfl
      refine UbjEnds.ite (fun _ => ?_) fun _ => UbjEnds.ite (fun _ => ?_) fun _ => .fail (.inr (.inl rfl))
      · have : ∀ g : Option Nat → Bytes → Rd (List (Event Nat) × Bytes), (∀ s, g none s = .fail 110) →
            ubjArr m g [] = .fail 110 := fun g hg => by
          simp [ubjArr, e, ubjUntil, hg]
        rw [this _ fun s => by cases fuel <;> simp [ubjV]]
        exact .fail (.inl rfl)
      · have : ∀ g : Option Nat → Bytes → Rd (List (Event Nat) × Bytes), ubjObj m ex g [] = .fail 110 := fun g => by
          simp [ubjObj, e, ubjMembersUntil, ubjString]
        rw [this]
        exact .fail (.inl rfl)
    · have hp := List.length_pos_iff.2 h0
      have hi := ih (K - 1) (by omega) (by omega)
      refine UbjEnds.ite (fun _ => ?_) fun _ => UbjEnds.ite (fun _ => ?_) fun _ => .fail (.inr (.inl rfl))
      · exact UbjEnds.bind (ubjArr_ends hi hs (by omega)) fun a r h hb => .ok h hb
      · exact UbjEnds.bind (ubjObj_ends (by omega) hi hs (by omega)) fun a r h hb => .ok h hb

/-! ## More input -/

/-- what the reader does if the input goes on with `q`: the same, unless it met the end of the input -/
def UbjGoes (q : Bytes) (x y : Rd (α × Bytes)) : Prop :=
  match x with
  | .ok (a, r) => y = .ok (a, r ++ q)
  | .fail id => id = 110 ∨ id = 113 ∨ y = .fail id
  | .threw k => y = .threw k
  | .running => True

theorem Goes.ubj {q : Bytes} {x y : Rd (α × Bytes)} (h : Goes q x y) : UbjGoes q x y := by
  match x, h with
  | .ok (a, r), h => exact h
  | .fail id, h => exact h.elim .inl fun h => .inr (.inr h)
  | .threw k, h => exact h
  | .running, _ => trivial

theorem UbjGoes.bind {q : Bytes} {x y : Rd (α × Bytes)} {f g : α × Bytes → Rd (β × Bytes)} (h : UbjGoes q x y)
    (hf : ∀ a r, UbjGoes q (f (a, r)) (g (a, r ++ q))) : UbjGoes q (x.bind f) (y.bind g) := by
  match x, h with
  | .ok (a, r), h => simp only [UbjGoes] at h; rw [h]; exact hf a r
  | .fail id, h =>
    rcases h with h | h | h
    · exact .inl h
    · exact .inr (.inl h)
    · rw [h]; exact .inr (.inr rfl)
  | .threw k, h => simp only [UbjGoes] at h; rw [h]; rfl
  | .running, _ => trivial

theorem UbjGoes.ite {q : Bytes} {p : Prop} [Decidable p] {x y x' y' : Rd (α × Bytes)} (hx : UbjGoes q x x')
    (hy : UbjGoes q y y') : UbjGoes q (if p then x else y) (if p then x' else y') := by
  by_cases h : p
  · rw [if_pos h, if_pos h]; exact hx
  · rw [if_neg h, if_neg h]; exact hy

theorem getNoop_more (s q : Bytes) : (getNoop s).1 = none ∨
    ∃ c r, getNoop s = (some c, r) ∧ getNoop (s ++ q) = (some c, r ++ q) := by
  rcases getNoop_cases s with ⟨_, e⟩ | ⟨ns, c, r, h1, h2, rfl, e⟩
  · exact .inl (by rw [e])
  · refine .inr ⟨c, r, e, ?_⟩
    rw [List.append_assoc, List.cons_append, getNoop_append _ h1 h2]

theorem ubjNumber_goes (m : Mach) (w : Nat) (s q : Bytes) (g : Nat → β) :
    UbjGoes q ((getNumber m false w s).bind fun p => .ok (g p.1, p.2))
      ((getNumber m false w (s ++ q)).bind fun p => .ok (g p.1, p.2)) :=
  UbjGoes.bind (getNumber_goes m w s q).ubj fun _ _ => rfl

theorem ubjInt_goes (m : Mach) (c : Nat) (s q : Bytes) : UbjGoes q (ubjInt m c s) (ubjInt m c (s ++ q)) := by
  rw [ubjInt, ubjInt]
  repeat' refine UbjGoes.ite (ubjNumber_goes m _ s q _) ?_
  exact .inr (.inl rfl)

theorem ubjString_goes (m : Mach) (ex : Bool) (c : Nat) (s q : Bytes) :
    UbjGoes q (ubjString m ex (some c) s) (ubjString m ex (some c) (s ++ q)) :=
  UbjGoes.bind (ubjInt_goes m c s q) fun i r => (takeString_goes m ex i.toNat r q).ubj

theorem ubjSize_goes (m : Mach) (s q : Bytes) : UbjGoes q (ubjSize m s) (ubjSize m (s ++ q)) := by
  rw [ubjSize, ubjSize]
  rcases getNoop_cases s with ⟨_, e⟩ | ⟨ns, c, r, h1, h2, rfl, e⟩
  · rw [e]; exact .inr (.inl rfl)
  · rw [e, List.append_assoc, List.cons_append, getNoop_append _ h1 h2]
    refine UbjGoes.bind (ubjInt_goes m c r q) fun i r' => ?_
    simp only [UbjGoes, List.length_append, Nat.add_sub_add_right]
    rw [List.take_append_of_le_length (by omega)]

theorem ubjTyped_goes (m : Mach) (s q : Bytes) : UbjGoes q (ubjTyped m s) (ubjTyped m (s ++ q)) := by
  match s with
  | [] => exact .inl rfl
  | t :: s =>
    simp only [ubjTyped, List.cons_append]
    rcases getNoop_cases s with ⟨_, e⟩ | ⟨ns, c, r, h1, h2, rfl, e⟩
    · rw [e]; exact .inl rfl
    · rw [e, List.append_assoc, List.cons_append, getNoop_append _ h1 h2]
      exact UbjGoes.ite (UbjGoes.bind (ubjSize_goes m r q) fun _ _ => rfl) (.inr (.inr rfl))

/-- after the head of a container: the end of the input, or more -/
theorem ubjHead_goes (m : Mach) (s q : Bytes) : ubjHead m s = .ok (⟨ubjNone, 0, none⟩, []) ∨
    UbjGoes q (ubjHead m s) (ubjHead m (s ++ q)) := by
  rw [ubjHead, ubjHead]
  rcases getNoop_cases s with ⟨_, e⟩ | ⟨ns, c, r, h1, h2, rfl, e⟩
  · rw [e]; exact .inl rfl
  · rw [e, List.append_assoc, List.cons_append, getNoop_append _ h1 h2]
    exact .inr (UbjGoes.ite (ubjTyped_goes m r q) (UbjGoes.ite (UbjGoes.bind (ubjSize_goes m r q) fun _ _ => rfl) rfl))

/-- `g` reads more where `f` meets the end of the input -/
def UbjMore (q : Bytes) (f g : Option Nat → Bytes → Rd (List (Event Nat) × Bytes)) : Prop :=
  (∀ s, f none s = .fail 110) ∧ ∀ c s, UbjGoes q (f (some c) s) (g (some c) (s ++ q))

theorem UbjMore.own {q : Bytes} {f g : Option Nat → Bytes → Rd (List (Event Nat) × Bytes)} (h : UbjMore q f g) (s : Bytes) :
    UbjGoes q (f (getNoop s).1 (getNoop s).2) (g (getNoop (s ++ q)).1 (getNoop (s ++ q)).2) := by
  rcases getNoop_more s q with e | ⟨c, r, e1, e2⟩
  · rw [e, h.1]; exact .inl rfl
  · rw [e1, e2]; exact h.2 c r

theorem ubjRepeat_goes {q : Bytes} {f g : Bytes → Rd (List (Event Nat) × Bytes)}
    (h : ∀ s, UbjGoes q (f s) (g (s ++ q))) : ∀ (n : Nat) (s : Bytes), UbjGoes q (ubjRepeat f n s) (ubjRepeat g n (s ++ q))
  | 0, _ => rfl
  | n + 1, s => UbjGoes.bind (h s) fun _ r => UbjGoes.bind (ubjRepeat_goes h n r) fun _ _ => rfl

theorem ubjMember_goes (m : Mach) (ex : Bool) {q : Bytes} {f g : Bytes → Rd (List (Event Nat) × Bytes)}
    (h : ∀ s, UbjGoes q (f s) (g (s ++ q))) (s : Bytes) : UbjGoes q (ubjMember m ex f s) (ubjMember m ex g (s ++ q)) := by
  match s with
  | [] => exact .inl rfl
  | c :: s => exact UbjGoes.bind (ubjString_goes m ex c s q) fun _ r => UbjGoes.bind (h r) fun _ _ => rfl

theorem ubjUntil_goes {q : Bytes} {f g : Option Nat → Bytes → Rd (List (Event Nat) × Bytes)} (h : UbjMore q f g) :
    ∀ (n n' : Nat) (c : Nat) (s : Bytes), n ≤ n' → UbjGoes q (ubjUntil f n (some c) s) (ubjUntil g n' (some c) (s ++ q)) := by
  intro n
  induction n with
  | zero =>
    intro n' c s hn
    rw [ubjUntil, ubjUntil.eq_def]
    exact UbjGoes.ite rfl trivial
  | succ n ih =>
    intro n' c s hn
    obtain ⟨n', rfl⟩ : ∃ k, n' = k + 1 := ⟨n' - 1, by omega⟩
    rw [ubjUntil, ubjUntil]
    refine UbjGoes.ite rfl (UbjGoes.bind (h.2 c s) fun a r => UbjGoes.bind ?_ fun _ _ => rfl)
    simp only
    rcases getNoop_more r q with e | ⟨c, r', e1, e2⟩
    · rw [e]
      cases n with
      | zero => simp [ubjUntil, UbjGoes]
      | succ n => simp [ubjUntil, h.1, UbjGoes]
    · rw [e1, e2]
      exact ih n' c r' (by omega)

theorem ubjMembersUntil_goes (m : Mach) (ex : Bool) {q : Bytes} {f g : Option Nat → Bytes → Rd (List (Event Nat) × Bytes)}
    (h : UbjMore q f g) : ∀ (n n' : Nat) (c : Nat) (s : Bytes), n ≤ n' →
      UbjGoes q (ubjMembersUntil m ex f n (some c) s) (ubjMembersUntil m ex g n' (some c) (s ++ q)) := by
  intro n
  induction n with
  | zero =>
    intro n' c s hn
    rw [ubjMembersUntil, ubjMembersUntil.eq_def]
    exact UbjGoes.ite rfl trivial
  | succ n ih =>
    intro n' c s hn
    obtain ⟨n', rfl⟩ : ∃ k, n' = k + 1 := ⟨n' - 1, by omega⟩
    rw [ubjMembersUntil, ubjMembersUntil]
    refine UbjGoes.ite rfl (UbjGoes.bind (ubjString_goes m ex c s q) fun k r0 => UbjGoes.bind (h.own r0) fun a r =>
      UbjGoes.bind ?_ fun _ _ => rfl)
    simp only
    rcases getNoop_more r q with e | ⟨c, r', e1, e2⟩
    · rw [e]
      cases n with
      | zero => simp [ubjMembersUntil, UbjGoes]
      | succ n => simp [ubjMembersUntil, ubjString, UbjGoes]
    · rw [e1, e2]
      exact ih n' c r' (by omega)

theorem ubjArr_goes (m : Mach) {q : Bytes} {f g : Option Nat → Bytes → Rd (List (Event Nat) × Bytes)} (h : UbjMore q f g)
    (s : Bytes) : UbjGoes q (ubjArr m f s) (ubjArr m g (s ++ q)) := by
  rw [ubjArr, ubjArr]
  rcases ubjHead_goes m s q with e | e
  · rw [e, Rd.ok_bind, if_neg (by simp)]
    simp only [ubjUntil, h.1]
    exact .inl rfl
  · refine UbjGoes.bind e fun hd r => UbjGoes.ite (UbjGoes.ite rfl (UbjGoes.ite (UbjGoes.ite ?_ rfl) ?_)) ?_
    · exact ubjRepeat_goes (h.2 _) _ _
    · exact ubjRepeat_goes h.own _ _
    · simp only
      cases hd.cur with
      | none => simp only [ubjUntil, h.1]; exact .inl rfl
      | some c => exact ubjUntil_goes h _ _ c r (by simp)

theorem ubjObj_goes (m : Mach) (ex : Bool) {q : Bytes} {f g : Option Nat → Bytes → Rd (List (Event Nat) × Bytes)}
    (h : UbjMore q f g) (s : Bytes) : UbjGoes q (ubjObj m ex f s) (ubjObj m ex g (s ++ q)) := by
  rw [ubjObj, ubjObj]
  rcases ubjHead_goes m s q with e | e
  · rw [e, Rd.ok_bind, if_neg (by simp)]
    simp only [ubjMembersUntil, ubjString]
    exact .inl rfl
  · refine UbjGoes.bind e fun hd r => UbjGoes.ite (UbjGoes.ite rfl (UbjGoes.ite ?_ ?_)) ?_
    · exact ubjRepeat_goes (ubjMember_goes m ex (h.2 _)) _ _
    · exact ubjRepeat_goes (ubjMember_goes m ex h.own) _ _
    · simp only
      cases hd.cur with
      | none => simp only [ubjMembersUntil, ubjString]; exact .inl rfl
      | some c => exact ubjMembersUntil_goes m ex h _ _ c r (by simp)

theorem ubjV_goes (m : Mach) (ex : Bool) (q : Bytes) : ∀ fuel fuel', fuel ≤ fuel' →
    UbjMore q (ubjV m ex fuel) (ubjV m ex fuel') := by
  intro fuel
  induction fuel with
  | zero => exact fun fuel' _ => ⟨fun s => by simp [ubjV], fun c s => by simp [ubjV, UbjGoes]⟩
  | succ fuel ih =>
    intro fuel' hf
    obtain ⟨fuel', rfl⟩ : ∃ k, fuel' = k + 1 := ⟨fuel' - 1, by omega⟩
    have hi := ih fuel' (by omega)
    refine ⟨fun s => by simp [ubjV], fun c s => ?_⟩
    rw [ubjV, ubjV]
    refine UbjGoes.ite rfl (UbjGoes.ite rfl (UbjGoes.ite rfl ?_))
    refine UbjGoes.ite (ubjNumber_goes m _ s q fun n => [Event.uint n]) ?_
    refine UbjGoes.ite (ubjNumber_goes m _ s q fun n => [Event.int (asSigned 1 n)]) ?_
    refine UbjGoes.ite (ubjNumber_goes m _ s q fun n => [Event.int (asSigned 2 n)]) ?_
    refine UbjGoes.ite (ubjNumber_goes m _ s q fun n => [Event.int (asSigned 4 n)]) ?_
    refine UbjGoes.ite (ubjNumber_goes m _ s q fun n => [Event.int (asSigned 8 n)]) ?_
    refine UbjGoes.ite (ubjNumber_goes m _ s q fun n => [Event.float (readSingle n)]) ?_
    refine UbjGoes.ite (ubjNumber_goes m _ s q fun n => [Event.float n]) ?_
    refine UbjGoes.ite ?_ (UbjGoes.ite ?_ (UbjGoes.ite ?_ (UbjGoes.ite ?_ (.inr (.inr rfl)))))
    · match s with
      | [] => exact .inl rfl
      | b :: s => exact UbjGoes.ite (.inr (.inr rfl)) rfl
    · match s with
      | [] => exact .inl rfl
      | b :: s => exact UbjGoes.bind (ubjString_goes m ex b s q) fun _ _ => rfl
    · exact UbjGoes.bind (ubjArr_goes m hi s) fun _ _ => rfl
    · exact UbjGoes.bind (ubjObj_goes m ex hi s) fun _ _ => rfl

end Verif.Json
