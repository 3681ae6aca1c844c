import Verif.Json.MsgRead
import Verif.Json.CborWrite

/-!
# What the MessagePack writer writes
-/

namespace Verif.Json
open Spec Spec.Msg

/-! ## Lengths -/

theorem msgSize_wide (m : Mach) {fixed room next width count k w n : Nat} (hk : k < count) (hw : w = width * 2 ^ k)
    (hn : n < 256 ^ w) : Size fixed room next width count n ((next + k) :: writeNumber m false w n) := by
  have := Size.wide (fixed := fixed) (room := room) (next := next) (width := width) (count := count) (k := k)
    (bs := writeNumber m false w n) hk (by rw [writeNumber_length, hw]) (writeNumber_lt m w n)
  rwa [writeNumber_big m hn] at this

theorem msgStringHead_size (m : Mach) {n : Nat} (h : n < 2 ^ 32) : StrSize n (msgStringHead m n) := by
  rw [msgStringHead]
  split
  · rw [writeNumber_one m (by omega)]; exact .small (by omega)
  · split
    · exact msgSize_wide m (k := 0) (by omega) (by decide) (by omega)
    · split
      · exact msgSize_wide m (k := 1) (by omega) (by decide) (by omega)
      · rw [if_pos (by omega)]
        exact msgSize_wide m (k := 2) (by omega) (by decide) (by omega)

theorem msgArrHead_size (m : Mach) {n : Nat} (h : n < 2 ^ 32) : ArrSize n (msgArrHead m n) := by
  rw [msgArrHead]
  split
  · rw [writeNumber_one m (by omega)]; exact .small (by omega)
  · split
    · exact msgSize_wide m (k := 0) (by omega) (by decide) (by omega)
    · rw [if_pos (by omega)]
      exact msgSize_wide m (k := 1) (by omega) (by decide) (by omega)

theorem msgObjHead_size (m : Mach) {n : Nat} (h : n < 2 ^ 32) : MapSize n (msgObjHead m n) := by
  rw [msgObjHead]
  split
  · rw [writeNumber_one m (by omega), show n % 16 = n by omega]; exact .small (by omega)
  · split
    · exact msgSize_wide m (k := 0) (by omega) (by decide) (by omega)
    · rw [if_pos (by omega)]
      exact msgSize_wide m (k := 1) (by omega) (by decide) (by omega)

theorem msgStr_shortest (m : Mach) {n : Nat} {t : Bytes} (h : StrSize n t) : (msgStringHead m n).length ≤ t.length := by
  cases h with
  | small h => rw [msgStringHead, if_pos (by omega), writeNumber_length]; simp
  | @wide k bs hk hl hb =>
    have hlt := big_lt hb
    rw [hl] at hlt
    have hk : k = 0 ∨ k = 1 ∨ k = 2 := by omega
    rcases hk with rfl | rfl | rfl <;>
      simp only [Nat.reducePow, Nat.reduceMul] at hlt <;> simp only [msgStringHead, List.length_cons, hl] <;>
      (repeat' split) <;> simp [writeNumber_length] <;> omega

theorem msgArr_shortest (m : Mach) {n : Nat} {t : Bytes} (h : ArrSize n t) : (msgArrHead m n).length ≤ t.length := by
  cases h with
  | small h => rw [msgArrHead, if_pos (by omega), writeNumber_length]; simp
  | @wide k bs hk hl hb =>
    have hlt := big_lt hb
    rw [hl] at hlt
    have hk : k = 0 ∨ k = 1 := by omega
    rcases hk with rfl | rfl <;>
      simp only [Nat.reducePow, Nat.reduceMul] at hlt <;> (simp only [msgArrHead, List.length_cons, hl]) <;>
      (repeat' split) <;> simp [writeNumber_length] <;> omega

theorem msgObj_shortest (m : Mach) {n : Nat} {t : Bytes} (h : MapSize n t) : (msgObjHead m n).length ≤ t.length := by
  cases h with
  | small h => rw [msgObjHead, if_pos (by omega), writeNumber_length]; simp
  | @wide k bs hk hl hb =>
    have hlt := big_lt hb
    rw [hl] at hlt
    have hk : k = 0 ∨ k = 1 := by omega
    rcases hk with rfl | rfl <;>
      simp only [Nat.reducePow, Nat.reduceMul] at hlt <;> simp only [msgObjHead, List.length_cons, hl] <;>
      (repeat' split) <;> simp [writeNumber_length] <;> omega

/-! ## Integers -/

theorem msgUint_item (m : Mach) {n : Nat} (h : n < 2 ^ 64) : Spec.Msg.Item (msgUint m n) (.uint n) := by
  have wide : ∀ k w, k < 4 → w = 2 ^ k → n < 256 ^ w →
      Spec.Msg.Item ((0xCC + k) :: writeNumber m false w n) (.uint n) := by
    intro k w hk hw hn
    have := Spec.Msg.Item.uint (k := k) (bs := writeNumber m false w n) hk (by rw [writeNumber_length, hw])
      (writeNumber_lt m w n)
    rwa [writeNumber_big m hn] at this
  rw [msgUint]
  split
  · rw [writeNumber_one m (by omega)]; exact .fixUint (by omega)
  · split
    · exact wide 0 1 (by omega) (by decide) (by omega)
    · split
      · exact wide 1 2 (by omega) (by decide) (by omega)
      · split
        · exact wide 2 4 (by omega) (by decide) (by omega)
        · rw [if_pos (by omega)]
          exact wide 3 8 (by omega) (by decide) (by omega)

theorem msgInt_item (m : Mach) {i : Int} (h1 : i < 0) (h2 : -2 ^ 63 ≤ i) : Spec.Msg.Item (msgInt m i) (.int i) := by
  have wide : ∀ k w, k < 4 → w = 2 ^ k → (i % 2 ^ (8 * 2 ^ k)).toNat < 256 ^ w →
      0 ≤ i % 2 ^ (8 * 2 ^ k) → -2 ^ (8 * 2 ^ k - 1) ≤ i → i < 2 ^ (8 * 2 ^ k - 1) →
      Spec.Msg.Item ((0xD0 + k) :: writeNumber m false w (i % 2 ^ (8 * 2 ^ k)).toNat) (.int i) := by
    intro k w hk hw hn h0 h1 h2
    refine Spec.Msg.Item.int hk (by rw [writeNumber_length, hw]) (writeNumber_lt m w _) h1 h2 ?_
    rw [writeNumber_big m hn]
    omega
  rw [msgInt, if_neg (by omega)]
  split
  · rw [writeNumber_one m (by omega)]
    have := Spec.Msg.Item.fixInt (n := (i + 32).toNat) (by omega)
    rw [show (((i + 32).toNat : Int) - 32) = i by omega] at this
    have e : (i % 2 ^ 8).toNat = 0xE0 + (i + 32).toNat := by omega
    rwa [e]
  · split
    · exact wide 0 1 (by omega) (by decide) (by simp; omega) (by simp; omega) (by simp; omega) (by simp; omega)
    · split
      · exact wide 1 2 (by omega) (by decide) (by simp; omega) (by simp; omega) (by simp; omega) (by simp; omega)
      · split
        · exact wide 2 4 (by omega) (by decide) (by simp; omega) (by simp; omega) (by simp; omega) (by simp; omega)
        · rw [if_pos (by omega)]
          exact wide 3 8 (by omega) (by decide) (by simp; omega) (by simp; omega) (by simp; omega) (by simp; omega)

theorem msgInt_nonneg (m : Mach) {i : Int} (h : 0 ≤ i) : msgInt m i = msgUint m i.toNat := by
  rw [msgInt, if_pos h]

theorem msgUint_length (m : Mach) (n : Nat) : (msgUint m n).length ≤ 9 := by
  rw [msgUint]; (repeat' split) <;> simp [writeNumber_length]

/-- no object stands for the number with fewer bytes -/
theorem msgUint_shortest (m : Mach) {n : Nat} {t : Bytes} {w : Json Nat} (h : Spec.Msg.Item t w)
    (hw : w = .uint n ∨ w = .int n) : (msgUint m n).length ≤ t.length := by
  cases h with
  | @fixUint k h =>
    have hk : k = n := by simpa using hw
    subst hk
    rw [msgUint, if_pos h, writeNumber_length]; simp
  | @fixInt k h =>
    rcases hw with hw | hw
    · cases hw
    · simp only [Json.int.injEq] at hw; omega
  | @uint k bs hk hl hb =>
    have hn : big bs = n := by simpa using hw
    have hlt := big_lt hb
    rw [hl, hn] at hlt
    rcases four_cases hk with rfl | rfl | rfl | rfl <;>
      simp only [Nat.reducePow] at hlt <;> simp only [msgUint, List.length_cons, hl] <;>
      (repeat' split) <;> simp [writeNumber_length] <;> omega
  | @int k bs i hk hl hb h1 h2 h3 =>
    have hi : i = n := by simpa using hw
    subst hi
    rcases four_cases hk with rfl | rfl | rfl | rfl <;>
      simp only [Nat.reducePow, Nat.reduceMul, Nat.reduceSub] at h2 <;> simp only [msgUint, List.length_cons, hl] <;>
      (repeat' split) <;> simp [writeNumber_length] <;> omega
  | _ => simp at hw

theorem msgInt_shortest (m : Mach) {i : Int} {t : Bytes} (hi : i < 0) (h : Spec.Msg.Item t (.int i)) :
    (msgInt m i).length ≤ t.length := by
  generalize e : (Json.int i : Json Nat) = w at h
  cases h <;> cases e
  · simp only [msgInt]
    rw [if_neg (by omega), if_pos (by omega), writeNumber_length]
    simp
  · rename_i k bs hk hl hb h1 h2 h3
    rw [List.length_cons, hl]
    rcases four_cases hk with rfl | rfl | rfl | rfl <;>
      simp only [Nat.reducePow, Nat.reduceMul, Nat.reduceSub] at h1 h2 <;> simp only [msgInt] <;>
      (repeat' split) <;> simp [writeNumber_length, msgUint_length] <;> omega

/-! ## Values -/

mutual
/-- every string and name has fewer than 2^32 bytes, every array and object fewer than 2^32 elements -/
def Spec.Sized : Json Nat → Prop
  | .null | .bool _ | .int _ | .uint _ | .float _ => True
  | .str s => s.length < 2 ^ 32
  | .arr xs => xs.length < 2 ^ 32 ∧ SizedL xs
  | .obj ms => ms.length < 2 ^ 32 ∧ SizedM ms
/-- the elements -/
def Spec.SizedL : List (Json Nat) → Prop
  | [] => True
  | v :: vs => Spec.Sized v ∧ SizedL vs
/-- the members -/
def Spec.SizedM : List (Bytes × Json Nat) → Prop
  | [] => True
  | (k, v) :: ms => k.length < 2 ^ 32 ∧ Spec.Sized v ∧ SizedM ms
end

mutual
theorem toMsg_item (m : Mach) : ∀ (v : Json Nat), Held v → (∀ x ∈ floats v, x < 2 ^ 64) → Sized v →
    Spec.Msg.Item (toMsg m v) (canon anyFloat v)
  | .null, _, _, _ => by rw [toMsg, canon]; exact .null
  | .bool true, _, _, _ => by rw [toMsg, canon]; exact .true
  | .bool false, _, _, _ => by rw [toMsg, canon]; exact .false
  | .int i, hv, _, _ => by
    rw [Held] at hv
    rw [toMsg, canon]
    by_cases h : 0 ≤ i
    · rw [if_pos h, msgInt_nonneg m h]
      exact msgUint_item m (by omega)
    · rw [if_neg h]
      exact msgInt_item m (by omega) (by omega)
  | .uint n, hv, _, _ => by
    rw [Held] at hv
    rw [toMsg, canon]
    exact msgUint_item m hv
  | .float x, _, hx, _ => by
    rw [toMsg, canon, anyFloat, if_pos rfl]
    have := Spec.Msg.Item.double (writeNumber_length m 8 x) (writeNumber_lt m 8 x)
    rwa [writeNumber_big m (by have := hx x (by simp [floats]); omega)] at this
  | .str s, _, _, hs => by
    rw [Sized] at hs
    rw [toMsg, canon, msgStr]
    exact .str (msgStringHead_size m hs)
  | .arr xs, hv, hx, hs => by
    rw [Held] at hv; rw [floats] at hx; rw [Sized] at hs
    rw [toMsg, canon]
    have h1 := msgArrHead_size m hs.1
    rw [← canonL_length anyFloat] at h1 ⊢
    exact .arr h1 (toMsgL_items m xs hv hx hs.2)
  | .obj ms, hv, hx, hs => by
    rw [Held] at hv; rw [floats] at hx; rw [Sized] at hs
    rw [toMsg, canon]
    have h1 := msgObjHead_size m hs.1
    rw [← canonM_length anyFloat] at h1 ⊢
    exact .obj h1 (toMsgM_pairs m ms hv hx hs.2)
theorem toMsgL_items (m : Mach) : ∀ (vs : List (Json Nat)), HeldL vs → (∀ x ∈ floatsL vs, x < 2 ^ 64) → SizedL vs →
    Spec.Msg.Items (toMsgL m vs) (canonL anyFloat vs)
  | [], _, _, _ => .nil
  | v :: vs, hv, hx, hs => by
    rw [HeldL] at hv; rw [floatsL] at hx; rw [SizedL] at hs
    rw [toMsgL, canonL]
    exact .cons (toMsg_item m v hv.1 (fun x h => hx x (List.mem_append_left _ h)) hs.1)
      (toMsgL_items m vs hv.2 (fun x h => hx x (List.mem_append_right _ h)) hs.2)
theorem toMsgM_pairs (m : Mach) : ∀ (ms : List (Bytes × Json Nat)), HeldM ms →
    (∀ x ∈ floatsM ms, x < 2 ^ 64) → SizedM ms → Spec.Msg.Pairs (toMsgM m ms) (canonM anyFloat ms)
  | [], _, _, _ => .nil
  | (k, v) :: ms, hv, hx, hs => by
    rw [HeldM] at hv; rw [floatsM] at hx; rw [SizedM] at hs
    rw [toMsgM, canonM, msgStr, List.append_assoc, List.append_assoc]
    exact .cons (msgStringHead_size m hs.1)
      (toMsg_item m v hv.2.1 (fun x h => hx x (List.mem_append_left _ h)) hs.2.1)
      (toMsgM_pairs m ms hv.2.2 (fun x h => hx x (List.mem_append_right _ h)) hs.2.2)
end

/-! ## The bytes do not depend on the machine -/

mutual
theorem toMsg_mach (m m' : Mach) : ∀ v : Json Nat, toMsg m v = toMsg m' v
  | .null | .bool _ => by rw [toMsg, toMsg]
  | .int _ => by simp only [toMsg, msgInt, msgUint, writeNumber_eq]
  | .uint _ => by simp only [toMsg, msgUint, writeNumber_eq]
  | .float _ => by simp only [toMsg, writeNumber_eq]
  | .str _ => by simp only [toMsg, msgStr, msgStringHead, writeNumber_eq]
  | .arr xs => by simp only [toMsg, msgArrHead, writeNumber_eq, toMsgL_mach m m' xs]
  | .obj ms => by simp only [toMsg, msgObjHead, writeNumber_eq, toMsgM_mach m m' ms]
theorem toMsgL_mach (m m' : Mach) : ∀ vs : List (Json Nat), toMsgL m vs = toMsgL m' vs
  | [] => rfl
  | v :: vs => by rw [toMsgL, toMsgL, toMsg_mach m m' v, toMsgL_mach m m' vs]
theorem toMsgM_mach (m m' : Mach) : ∀ ms : List (Bytes × Json Nat), toMsgM m ms = toMsgM m' ms
  | [] => rfl
  | (k, v) :: ms => by
    rw [toMsgM, toMsgM, toMsg_mach m m' v, toMsgM_mach m m' ms]
    simp only [msgStr, msgStringHead, writeNumber_eq]
end

/-! ## No object with the value is shorter -/

theorem canon_int (fl : Floats Nat) (w : Json Nat) {i : Int} (h : canon fl w = .int i) : w = .int i ∧ i < 0 := by
  cases w <;> simp only [canon] at h
  · exact absurd h nofun
  · exact absurd h nofun
  · split at h
    · cases h
    · cases h; exact ⟨rfl, by omega⟩
  · cases h
  · split at h <;> cases h
  all_goals cases h

theorem canon_uint (fl : Floats Nat) (w : Json Nat) {n : Nat} (h : canon fl w = .uint n) : w = .uint n ∨ w = .int n := by
  cases w <;> simp only [canon] at h
  · exact absurd h nofun
  · exact absurd h nofun
  · split at h
    · cases h; right; congr; omega
    · cases h
  · cases h; exact .inl rfl
  · split at h <;> cases h
  all_goals cases h

mutual
theorem toMsg_shortest (m : Mach) : ∀ (v : Json Nat) {t : Bytes} {w : Json Nat}, floats v = [] → Spec.Msg.Item t w →
    canon anyFloat w = canon anyFloat v → (toMsg m v).length ≤ t.length
  | .null, _, _, _, h, _ => by have := msgItem_length_pos h; rw [toMsg]; simp; omega
  | .bool _, _, _, _, h, _ => by have := msgItem_length_pos h; rw [toMsg]; simp; omega
  | .int i, _, w, _, h, e => by
    rw [toMsg]
    rw [canon] at e
    by_cases hp : 0 ≤ i
    · rw [if_pos hp] at e
      rw [msgInt_nonneg m hp]
      exact msgUint_shortest m h (canon_uint _ w e)
    · rw [if_neg hp] at e
      obtain ⟨rfl, _⟩ := canon_int _ w e
      exact msgInt_shortest m (by omega) h
  | .uint n, _, w, _, h, e => by
    rw [toMsg]
    exact msgUint_shortest m h (canon_uint _ w e)
  | .float _, _, _, hf, _, _ => by simp [floats] at hf
  | .str s, _, w, _, h, e => by
    rw [canon] at e
    cases h <;> simp only [canon] at e <;> try cases e
    any_goals (split at e <;> cases e)
    rename_i h
    rw [toMsg, msgStr, List.length_append, List.length_append]
    have := msgStr_shortest m h
    omega
  | .arr xs, _, w, hf, h, e => by
    rw [canon] at e
    rw [floats] at hf
    cases h <;> simp only [canon] at e <;> try cases e
    any_goals (split at e <;> cases e)
    rename_i t ts vs h hi
    simp only [Json.arr.injEq] at e
    have h1 := msgArr_shortest m h
    have h2 := toMsgL_shortest m xs hf hi e
    have h3 := congrArg List.length e
    rw [canonL_length, canonL_length] at h3
    rw [toMsg, List.length_append, List.length_append, ← h3]
    omega
  | .obj ms, _, w, hf, h, e => by
    rw [canon] at e
    rw [floats] at hf
    cases h <;> simp only [canon] at e <;> try cases e
    any_goals (split at e <;> cases e)
    rename_i t ts vs h hi
    simp only [Json.obj.injEq] at e
    have h1 := msgObj_shortest m h
    have h2 := toMsgM_shortest m ms hf hi e
    have h3 := congrArg List.length e
    rw [canonM_length, canonM_length] at h3
    rw [toMsg, List.length_append, List.length_append, ← h3]
    omega
theorem toMsgL_shortest (m : Mach) : ∀ (vs : List (Json Nat)) {t : Bytes} {ws : List (Json Nat)}, floatsL vs = [] →
    Spec.Msg.Items t ws → canonL anyFloat ws = canonL anyFloat vs → (toMsgL m vs).length ≤ t.length
  | [], _, _, _, _, _ => by simp [toMsgL]
  | v :: vs, _, ws, hf, h, e => by
    rw [floatsL, List.append_eq_nil_iff] at hf
    cases h with
    | nil => simp [canonL] at e
    | cons h h' =>
      simp only [canonL, List.cons.injEq] at e
      have h1 := toMsg_shortest m v hf.1 h e.1
      have h2 := toMsgL_shortest m vs hf.2 h' e.2
      rw [toMsgL, List.length_append, List.length_append]
      omega
theorem toMsgM_shortest (m : Mach) : ∀ (ms : List (Bytes × Json Nat)) {t : Bytes} {ws : List (Bytes × Json Nat)},
    floatsM ms = [] → Spec.Msg.Pairs t ws → canonM anyFloat ws = canonM anyFloat ms → (toMsgM m ms).length ≤ t.length
  | [], _, _, _, _, _ => by simp [toMsgM]
  | (k, v) :: ms, _, ws, hf, h, e => by
    rw [floatsM, List.append_eq_nil_iff] at hf
    cases h with
    | nil => simp [canonM] at e
    | cons hk h h' =>
      simp only [canonM, List.cons.injEq, Prod.mk.injEq] at e
      obtain ⟨⟨rfl, e1⟩, e2⟩ := e
      have h0 := msgStr_shortest m hk
      have h1 := toMsg_shortest m v hf.1 h e1
      have h2 := toMsgM_shortest m ms hf.2 h' e2
      simp only [toMsgM, msgStr, List.length_append]
      omega
end

end Verif.Json
