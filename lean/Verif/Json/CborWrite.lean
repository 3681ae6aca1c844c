import Verif.Json.CborRead
import Verif.Json.ReadBackLemmas
import Verif.Json.CompareLemmas

/-!
# What the CBOR writer writes
-/

namespace Verif.Json
open Spec Spec.Cbor

/-! ## Numbers -/

theorem writeNumber_eq (m : Mach) (w n : Nat) : writeNumber m false w n = (lowBytes w n).reverse := by
  cases h : m.little <;> simp [writeNumber, memBytes, h]

theorem big_lowBytes : ∀ (w n : Nat), n < 256 ^ w → big (lowBytes w n).reverse = n
  | 0, n, h => by simp at h; simp [lowBytes, big, h]
  | w + 1, n, h => by
    rw [lowBytes, List.reverse_cons, big_append, big_lowBytes w (n / 256)
      (Nat.div_lt_of_lt_mul (by rw [Nat.pow_succ] at h; omega))]
    simp [big]
    omega

theorem lowBytes_length : ∀ (w n : Nat), (lowBytes w n).length = w
  | 0, _ => rfl
  | w + 1, n => by simp [lowBytes, lowBytes_length w]

theorem lowBytes_lt : ∀ (w n : Nat), ∀ b ∈ lowBytes w n, b < 256
  | 0, _ => by simp [lowBytes]
  | w + 1, n => by
    intro b hb
    rw [lowBytes, List.mem_cons] at hb
    rcases hb with rfl | hb
    · omega
    · exact lowBytes_lt w _ b hb

theorem writeNumber_length (m : Mach) (w n : Nat) : (writeNumber m false w n).length = w := by
  rw [writeNumber_eq, List.length_reverse, lowBytes_length]

theorem writeNumber_lt (m : Mach) (w n : Nat) : ∀ b ∈ writeNumber m false w n, b < 256 := by
  intro b hb
  rw [writeNumber_eq, List.mem_reverse] at hb
  exact lowBytes_lt w n b hb

theorem writeNumber_big (m : Mach) {w n : Nat} (h : n < 256 ^ w) : big (writeNumber m false w n) = n := by
  rw [writeNumber_eq, big_lowBytes w n h]

theorem writeNumber_one (m : Mach) {n : Nat} (h : n < 256) : writeNumber m false 1 n = [n] := by
  rw [writeNumber_eq]
  simp [lowBytes, Nat.mod_eq_of_lt h]

/-! ## Heads -/

/-- the head of an item with the fewest bytes -/
def headOf (m : Mach) (major n : Nat) : Bytes :=
  if n ≤ 0x17 then [32 * major + n]
  else if n ≤ 2 ^ 8 - 1 then (32 * major + 24) :: writeNumber m false 1 n
  else if n ≤ 2 ^ 16 - 1 then (32 * major + 25) :: writeNumber m false 2 n
  else if n ≤ 2 ^ 32 - 1 then (32 * major + 26) :: writeNumber m false 4 n
  else (32 * major + 27) :: writeNumber m false 8 n

theorem headOf_more (m : Mach) (major : Nat) {k w n : Nat} (hk : k < 4) (hw : w = 2 ^ k) (hn : n < 256 ^ w) :
    Head major n ((32 * major + 24 + k) :: writeNumber m false w n) := by
  have := Head.more (major := major) (k := k) (bs := writeNumber m false w n) hk
    (by rw [writeNumber_length, hw]) (writeNumber_lt m w n)
  rwa [writeNumber_big m hn] at this

theorem headOf_head (m : Mach) (major : Nat) {n : Nat} (hn : n < 2 ^ 64) : Head major n (headOf m major n) := by
  rw [headOf]
  split
  · exact .tiny (by omega)
  · split
    · exact headOf_more m major (k := 0) (w := 1) (by omega) (by decide) (by omega)
    · split
      · exact headOf_more m major (k := 1) (w := 2) (by omega) (by decide) (by omega)
      · split
        · exact headOf_more m major (k := 2) (w := 4) (by omega) (by decide) (by omega)
        · exact headOf_more m major (k := 3) (w := 8) (by omega) (by decide) (by omega)

theorem headOf_shortest (m : Mach) {major n : Nat} {t : Bytes} (h : Head major n t) :
    (headOf m major n).length ≤ t.length := by
  cases h with
  | tiny h => rw [headOf, if_pos (by omega)]; simp
  | @more k bs hk hl hb =>
    have hlt := big_lt hb
    rw [hl] at hlt
    rcases four_cases hk with rfl | rfl | rfl | rfl <;>
      simp only [Nat.reducePow] at hlt <;> simp only [headOf, List.length_cons, hl] <;>
      (repeat' split) <;> simp [writeNumber_length] <;> omega

theorem cborStringHead_eq (m : Mach) {n : Nat} (h : n < 2 ^ 64) : cborStringHead m n = headOf m 3 n := by
  rw [cborStringHead, headOf]
  split
  · rw [writeNumber_one m (by omega)]
  · rw [if_pos (show n ≤ 2 ^ 64 - 1 by omega)]

theorem cborArrHead_eq (m : Mach) {n : Nat} (h : n < 2 ^ 64) : cborArrHead m n = headOf m 4 n := by
  rw [cborArrHead, headOf]
  split
  · rw [writeNumber_one m (by omega)]
  · rw [if_pos (show n ≤ 2 ^ 64 - 1 by omega)]

theorem cborObjHead_eq (m : Mach) {n : Nat} (h : n < 2 ^ 64) : cborObjHead m n = headOf m 5 n := by
  rw [cborObjHead, headOf]
  split
  · rw [writeNumber_one m (by omega)]
  · rw [if_pos (show n ≤ 2 ^ 64 - 1 by omega)]

theorem cborUint_eq (m : Mach) (n : Nat) : cborUint m n = headOf m 0 n := by
  rw [cborUint, headOf]
  split
  · rw [writeNumber_one m (by omega)]; simp
  · rfl

theorem cborInt_nonneg (m : Mach) {i : Int} (h : 0 ≤ i) : cborInt m i = headOf m 0 i.toNat := by
  obtain ⟨n, rfl⟩ := Int.eq_ofNat_of_zero_le h
  rw [← cborUint_eq, cborInt, cborUint, if_pos (by omega)]
  simp only [Int.toNat_natCast]
  have e1 : ((n : Int) ≤ 0x17) = (n ≤ 0x17) := propext (by omega)
  have e2 : ((n : Int) ≤ 2 ^ 8 - 1) = (n ≤ 2 ^ 8 - 1) := propext (by omega)
  have e3 : ((n : Int) ≤ 2 ^ 16 - 1) = (n ≤ 2 ^ 16 - 1) := propext (by omega)
  have e4 : ((n : Int) ≤ 2 ^ 32 - 1) = (n ≤ 2 ^ 32 - 1) := propext (by omega)
  simp only [e1, e2, e3, e4]

theorem cborInt_neg (m : Mach) {i : Int} (h : i < 0) : cborInt m i = headOf m 1 (-1 - i).toNat := by
  obtain ⟨n, hn⟩ := Int.eq_ofNat_of_zero_le (show 0 ≤ -1 - i by omega)
  rw [cborInt, if_neg (by omega)]
  simp only [hn, Int.toNat_natCast]
  have e1 : (i ≥ -24) = (n ≤ 0x17) := propext ⟨by omega, by omega⟩
  have e2 : ((n : Int) ≤ 2 ^ 8 - 1) = (n ≤ 2 ^ 8 - 1) := propext (by omega)
  have e3 : ((n : Int) ≤ 2 ^ 16 - 1) = (n ≤ 2 ^ 16 - 1) := propext (by omega)
  have e4 : ((n : Int) ≤ 2 ^ 32 - 1) = (n ≤ 2 ^ 32 - 1) := propext (by omega)
  rw [headOf]
  simp only [e1, e2, e3, e4]
  by_cases h1 : n ≤ 0x17
  · rw [if_pos (by omega), if_pos (by omega)]
    have : ((32 : Int) + n).toNat = 32 + n := by omega
    rw [this, writeNumber_one m (by omega)]
  · rw [if_neg h1, if_neg h1]

/-! ## Values -/

theorem headOf_pos (m : Mach) (major n : Nat) : 0 < (headOf m major n).length := by
  rw [headOf]; (repeat' split) <;> simp

theorem cborStr_length (m : Mach) (s : Bytes) : s.length < (cborStr m s).length ∨ 2 ^ 64 ≤ (cborStr m s).length := by
  rw [cborStr, List.length_append]
  by_cases h : s.length < 2 ^ 64
  · rw [cborStringHead_eq m h]; have := headOf_pos m 3 s.length; omega
  · omega

theorem toCbor_pos (m : Mach) : ∀ v : Json Nat, 0 < (toCbor m v).length
  | .null => by simp [toCbor]
  | .bool b => by simp [toCbor]
  | .int i => by
    rw [toCbor]
    by_cases h : 0 ≤ i
    · rw [cborInt_nonneg m h]; exact headOf_pos ..
    · rw [cborInt_neg m (by omega)]; exact headOf_pos ..
  | .uint n => by rw [toCbor, cborUint_eq]; exact headOf_pos ..
  | .float x => by simp [toCbor]
  | .str s => by rw [toCbor]; rcases cborStr_length m s with h | h <;> omega
  | .arr [] => by
    rw [toCbor, List.length_append, cborArrHead_eq m (by simp)]; have := headOf_pos m 4 ([] : List (Json Nat)).length; omega
  | .arr (v :: vs) => by
    rw [toCbor, toCborL]; have := toCbor_pos m v; simp only [List.length_append]; omega
  | .obj [] => by
    rw [toCbor, List.length_append, cborObjHead_eq m (by simp)]
    have := headOf_pos m 5 ([] : List (Bytes × Json Nat)).length; omega
  | .obj ((k, v) :: ms) => by
    rw [toCbor, toCborM]; have := toCbor_pos m v; simp only [List.length_append]; omega

theorem toCborL_length (m : Mach) : ∀ vs : List (Json Nat), vs.length ≤ (toCborL m vs).length
  | [] => by simp
  | v :: vs => by
    have := toCbor_pos m v; have := toCborL_length m vs
    rw [toCborL]; simp only [List.length_append, List.length_cons]; omega

theorem toCborM_length (m : Mach) : ∀ ms : List (Bytes × Json Nat), ms.length ≤ (toCborM m ms).length
  | [] => by simp
  | (k, v) :: ms => by
    have := toCbor_pos m v; have := toCborM_length m ms
    rw [toCborM]; simp only [List.length_append, List.length_cons]; omega

/-- every floating-point number counts as finite -/
def anyFloat : Floats Nat := ⟨fun _ => 0, fun _ => true, fun _ => []⟩

/-- the value with every integer that is not negative stored as an unsigned one -/
def Spec.unsign (v : Json Nat) : Json Nat := canon anyFloat v

theorem cborStr_text (m : Mach) {lax : Bool} {s : Bytes} (h : lax = true ∨ Utf8 s) (hl : (cborStr m s).length < 2 ^ 64) :
    Text lax (cborStr m s) s := by
  have hs : s.length < 2 ^ 64 := by rcases cborStr_length m s with h | h <;> omega
  rw [cborStr, cborStringHead_eq m hs]
  exact .whole (headOf_head m 3 hs) h

theorem canonL_length (fl : Floats Nat) : ∀ vs : List (Json Nat), (canonL fl vs).length = vs.length
  | [] => rfl
  | v :: vs => by rw [canonL, List.length_cons, canonL_length fl vs, List.length_cons]

theorem canonM_length (fl : Floats Nat) : ∀ ms : List (Bytes × Json Nat), (canonM fl ms).length = ms.length
  | [] => rfl
  | (k, v) :: ms => by rw [canonM, List.length_cons, canonM_length fl ms, List.length_cons]

mutual
theorem toCbor_item (m : Mach) (lax : Bool) : ∀ (v : Json Nat), Held v → (∀ x ∈ floats v, x < 2 ^ 64) →
    (lax = true ∨ ∀ s ∈ strings v, Utf8 s) → (toCbor m v).length < 2 ^ 64 → Item lax (toCbor m v) (canon anyFloat v)
  | .null, _, _, _, _ => by rw [toCbor, canon]; exact .null
  | .bool true, _, _, _, _ => by rw [toCbor, canon]; exact .true
  | .bool false, _, _, _, _ => by rw [toCbor, canon]; exact .false
  | .int i, hv, _, _, _ => by
    rw [Held] at hv
    rw [toCbor, canon]
    by_cases h : 0 ≤ i
    · rw [if_pos h, cborInt_nonneg m h]
      exact .uint (headOf_head m 0 (by omega))
    · rw [if_neg h, cborInt_neg m (by omega)]
      have := Item.neg (lax := lax) (headOf_head m 1 (n := (-1 - i).toNat) (by omega)) (by omega)
      rwa [show (-1 - ((-1 - i).toNat : Int)) = i by omega] at this
  | .uint n, hv, _, _, _ => by
    rw [Held] at hv
    rw [toCbor, canon, cborUint_eq]
    exact .uint (headOf_head m 0 hv)
  | .float x, _, hx, _, _ => by
    rw [toCbor, canon, anyFloat, if_pos rfl]
    have := Item.double (lax := lax) (writeNumber_length m 8 x) (writeNumber_lt m 8 x)
    rwa [writeNumber_big m (by have := hx x (by simp [floats]); omega)] at this
  | .str s, _, _, hs, hl => by
    rw [toCbor] at hl
    rw [toCbor, canon]
    exact .str (cborStr_text m (hs.imp id fun h => h s (by simp [strings])) hl)
  | .arr xs, hv, hx, hs, hl => by
    rw [Held] at hv; rw [floats] at hx; rw [strings] at hs
    rw [toCbor, List.length_append] at hl
    have h0 := toCborL_length m xs
    rw [toCbor, canon, cborArrHead_eq m (by omega)]
    have h1 := headOf_head m 4 (n := xs.length) (by omega)
    rw [← canonL_length anyFloat] at h1 ⊢
    exact .arr h1 (toCborL_items m lax xs hv hx hs (by omega))
  | .obj ms, hv, hx, hs, hl => by
    rw [Held] at hv; rw [floats] at hx; rw [strings] at hs
    rw [toCbor, List.length_append] at hl
    have h0 := toCborM_length m ms
    rw [toCbor, canon, cborObjHead_eq m (by omega)]
    have h1 := headOf_head m 5 (n := ms.length) (by omega)
    rw [← canonM_length anyFloat] at h1 ⊢
    exact .obj h1 (toCborM_pairs m lax ms hv hx hs (by omega))
theorem toCborL_items (m : Mach) (lax : Bool) : ∀ (vs : List (Json Nat)), HeldL vs → (∀ x ∈ floatsL vs, x < 2 ^ 64) →
    (lax = true ∨ ∀ s ∈ stringsL vs, Utf8 s) → (toCborL m vs).length < 2 ^ 64 →
    Items lax (toCborL m vs) (canonL anyFloat vs)
  | [], _, _, _, _ => .nil
  | v :: vs, hv, hx, hs, hl => by
    rw [HeldL] at hv; rw [floatsL] at hx; rw [stringsL] at hs; rw [toCborL, List.length_append] at hl
    rw [toCborL, canonL]
    exact .cons
      (toCbor_item m lax v hv.1 (fun x h => hx x (List.mem_append_left _ h))
        (hs.imp id fun h s hm => h s (List.mem_append_left _ hm)) (by omega))
      (toCborL_items m lax vs hv.2 (fun x h => hx x (List.mem_append_right _ h))
        (hs.imp id fun h s hm => h s (List.mem_append_right _ hm)) (by omega))
theorem toCborM_pairs (m : Mach) (lax : Bool) : ∀ (ms : List (Bytes × Json Nat)), HeldM ms →
    (∀ x ∈ floatsM ms, x < 2 ^ 64) → (lax = true ∨ ∀ s ∈ stringsM ms, Utf8 s) → (toCborM m ms).length < 2 ^ 64 →
    Pairs lax (toCborM m ms) (canonM anyFloat ms)
  | [], _, _, _, _ => .nil
  | (k, v) :: ms, hv, hx, hs, hl => by
    rw [HeldM] at hv; rw [floatsM] at hx; rw [stringsM] at hs
    rw [toCborM, List.length_append, List.length_append] at hl
    rw [toCborM, canonM, List.append_assoc]
    exact .cons (cborStr_text m (hs.imp id fun h => h k List.mem_cons_self) (by omega))
      (toCbor_item m lax v hv.2.1 (fun x h => hx x (List.mem_append_left _ h))
        (hs.imp id fun h s hm => h s (List.mem_cons_of_mem _ (List.mem_append_left _ hm))) (by omega))
      (toCborM_pairs m lax ms hv.2.2 (fun x h => hx x (List.mem_append_right _ h))
        (hs.imp id fun h s hm => h s (List.mem_cons_of_mem _ (List.mem_append_right _ hm))) (by omega))
end

/-! ## The bytes do not depend on the machine -/

theorem headOf_mach (m m' : Mach) (major n : Nat) : headOf m major n = headOf m' major n := by
  simp only [headOf, writeNumber_eq]

mutual
theorem toCbor_mach (m m' : Mach) : ∀ v : Json Nat, toCbor m v = toCbor m' v
  | .null | .bool _ => by rw [toCbor, toCbor]
  | .int _ => by simp only [toCbor, cborInt, writeNumber_eq]
  | .uint _ => by simp only [toCbor, cborUint, writeNumber_eq]
  | .float _ => by simp only [toCbor, writeNumber_eq]
  | .str _ => by simp only [toCbor, cborStr, cborStringHead, writeNumber_eq]
  | .arr xs => by simp only [toCbor, cborArrHead, writeNumber_eq, toCborL_mach m m' xs]
  | .obj ms => by simp only [toCbor, cborObjHead, writeNumber_eq, toCborM_mach m m' ms]
theorem toCborL_mach (m m' : Mach) : ∀ vs : List (Json Nat), toCborL m vs = toCborL m' vs
  | [] => rfl
  | v :: vs => by rw [toCborL, toCborL, toCbor_mach m m' v, toCborL_mach m m' vs]
theorem toCborM_mach (m m' : Mach) : ∀ ms : List (Bytes × Json Nat), toCborM m ms = toCborM m' ms
  | [] => rfl
  | (k, v) :: ms => by
    rw [toCborM, toCborM, toCbor_mach m m' v, toCborM_mach m m' ms]
    simp only [cborStr, cborStringHead, writeNumber_eq]
end

end Verif.Json
