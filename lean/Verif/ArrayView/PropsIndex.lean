import Verif.ArrayView.PropsIter
import Verif.ArrayView.Index
import Mathlib.Algebra.Order.Ring.Rat
import Mathlib.Tactic.FieldSimp
import Mathlib.Algebra.Order.Ring.Abs

/-!
# C98: arithmetic of indices
-/

namespace Verif.ArrayView

theorem signed_iff (x y : Int) : signed x = .ok y ↔ y = x ∧ fits x = true := by
  unfold signed
  by_cases h : fits x <;> simp [h, eq_comm]

theorem fits_iff (x : Int) : fits x = true ↔ -9223372036854775808 ≤ x ∧ x ≤ 9223372036854775807 := by
  simp [fits]

theorem zipIdx_iff (op : Int → Int → Int) (a b c : Idx) (h : a.length = b.length) :
    zipIdx (fun x y => signed (op x y)) a b = .ok c ↔
      c = List.zipWith op a b ∧ ∀ x ∈ c, fits x = true := by
  induction a generalizing b c with
  | nil =>
    cases b with
    | nil =>
      rw [zipIdx, List.zipWith_nil_left, Outcome.ok.injEq]
      · exact ⟨fun h => ⟨h.symm, by simp [← h]⟩, fun h => h.1.symm⟩
      · simp
    | cons _ _ => simp at h
  | cons x a ih =>
    cases b with
    | nil => simp at h
    | cons y b =>
      have ih' := fun c => ih b c (by simpa using h)
      rw [zipIdx]
      cases hs : signed (op x y) with
      | ok z =>
        obtain ⟨rfl, hf⟩ := (signed_iff _ _).mp hs
        simp only [Outcome.bind_ok]
        cases hr : zipIdx (fun x y => signed (op x y)) a b with
        | ok r =>
          obtain ⟨rfl, hr2⟩ := (ih' r).mp hr
          simp only [Outcome.bind_ok, Outcome.ok.injEq, List.zipWith_cons_cons]
          constructor
          · rintro rfl
            exact ⟨rfl, by simpa using ⟨hf, hr2⟩⟩
          · exact fun h => h.1.symm
        | _ =>
          simp only [Outcome.bind_ub, Outcome.bind_assertFail, Outcome.bind_outOfRange, Outcome.bind_throws, Outcome.bind_diverges,
            reduceCtorEq, false_iff]
          rintro ⟨rfl, hc⟩
          have := (ih' (List.zipWith op a b)).mpr ⟨rfl, fun x hx => hc x (by simp [hx])⟩
          rw [this] at hr
          cases hr
      | _ =>
        simp only [Outcome.bind_ub, Outcome.bind_assertFail, Outcome.bind_outOfRange, Outcome.bind_throws, Outcome.bind_diverges,
            reduceCtorEq, false_iff]
        rintro ⟨rfl, hc⟩
        have := (signed_iff (op x y) (op x y)).mpr ⟨rfl, hc _ (by simp)⟩
        rw [this] at hs
        cases hs

theorem mapIdx_iff (op : Int → Int) (a c : Idx) :
    mapIdx (fun x => signed (op x)) a = .ok c ↔ c = a.map op ∧ ∀ x ∈ c, fits x = true := by
  induction a generalizing c with
  | nil =>
    rw [mapIdx, List.map_nil, Outcome.ok.injEq]
    exact ⟨fun h => ⟨h.symm, by simp [← h]⟩, fun h => h.1.symm⟩
  | cons x a ih =>
    rw [mapIdx]
    cases hs : signed (op x) with
    | ok z =>
      obtain ⟨rfl, hf⟩ := (signed_iff _ _).mp hs
      simp only [Outcome.bind_ok]
      cases hr : mapIdx (fun x => signed (op x)) a with
      | ok r =>
        obtain ⟨rfl, hr2⟩ := (ih r).mp hr
        simp only [Outcome.bind_ok, Outcome.ok.injEq, List.map_cons]
        constructor
        · rintro rfl
          exact ⟨rfl, List.forall_mem_cons.mpr ⟨hf, hr2⟩⟩
        · exact fun h => h.1.symm
      | _ =>
        simp only [Outcome.bind_ub, Outcome.bind_assertFail, Outcome.bind_outOfRange, Outcome.bind_throws, Outcome.bind_diverges,
          reduceCtorEq, false_iff]
        rintro ⟨rfl, hc⟩
        have := (ih (a.map op)).mpr ⟨rfl, fun x hx => hc x (by simp [hx])⟩
        rw [this] at hr
        cases hr
    | _ =>
      simp only [Outcome.bind_ub, Outcome.bind_assertFail, Outcome.bind_outOfRange, Outcome.bind_throws, Outcome.bind_diverges,
          reduceCtorEq, false_iff]
      rintro ⟨rfl, hc⟩
      have := (signed_iff (op x) (op x)).mpr ⟨rfl, hc _ (by simp)⟩
      rw [this] at hs
      cases hs

/-- every component is the sum (difference, ...) of the two components and fits -/
theorem zip_comp (op : Int → Int → Int) (a b c : Idx) (h : a.length = b.length) :
    (c = List.zipWith op a b ∧ ∀ x ∈ c, fits x = true) ↔
    c.length = a.length ∧ ∀ i (h1 : i < c.length) (h2 : i < a.length) (h3 : i < b.length),
      c[i] = op a[i] b[i] ∧ -9223372036854775808 ≤ c[i] ∧ c[i] ≤ 9223372036854775807 := by
  constructor
  · rintro ⟨rfl, hf⟩
    refine ⟨by simp [h], fun i h1 h2 h3 => ⟨by simp, ?_⟩⟩
    exact (fits_iff _).mp (hf _ (List.getElem_mem h1))
  · rintro ⟨hl, hc⟩
    have : c = List.zipWith op a b := by
      apply List.ext_getElem (by simp [hl, h])
      intro i h1 h2
      rw [(hc i h1 (by omega) (by omega)).1]
      simp
    refine ⟨this, fun x hx => ?_⟩
    obtain ⟨i, hi, rfl⟩ := List.getElem_of_mem hx
    exact (fits_iff _).mpr (hc i hi (by omega) (by omega)).2

theorem map_comp (op : Int → Int) (a c : Idx) :
    (c = a.map op ∧ ∀ x ∈ c, fits x = true) ↔
    c.length = a.length ∧ ∀ i (h1 : i < c.length) (h2 : i < a.length),
      c[i] = op a[i] ∧ -9223372036854775808 ≤ c[i] ∧ c[i] ≤ 9223372036854775807 := by
  constructor
  · rintro ⟨rfl, hf⟩
    refine ⟨by simp, fun i h1 h2 => ⟨by simp, ?_⟩⟩
    exact (fits_iff _).mp (hf _ (List.getElem_mem h1))
  · rintro ⟨hl, hc⟩
    have : c = a.map op := by
      apply List.ext_getElem (by simp [hl])
      intro i h1 h2
      rw [(hc i h1 (by omega)).1]
      simp
    refine ⟨this, fun x hx => ?_⟩
    obtain ⟨i, hi, rfl⟩ := List.getElem_of_mem hx
    exact (fits_iff _).mpr (hc i hi (by omega)).2

/-- **C98** The sum and the difference of two indices are those of the components, defined exactly if all of them fit -/
theorem C98_plus_minus_iff (a b c : Idx) (h : a.length = b.length) :
    (idxPlus a b = .ok c ↔ c.length = a.length ∧ ∀ i (h1 : i < c.length) (h2 : i < a.length) (h3 : i < b.length),
      c[i] = a[i] + b[i] ∧ -9223372036854775808 ≤ c[i] ∧ c[i] ≤ 9223372036854775807) ∧
    (idxMinus a b = .ok c ↔ c.length = a.length ∧ ∀ i (h1 : i < c.length) (h2 : i < a.length) (h3 : i < b.length),
      c[i] = a[i] - b[i] ∧ -9223372036854775808 ≤ c[i] ∧ c[i] ≤ 9223372036854775807) :=
  ⟨(zipIdx_iff _ a b c h).trans (zip_comp _ a b c h), (zipIdx_iff _ a b c h).trans (zip_comp _ a b c h)⟩

example : idxPlus [1, 2, -3] [10, 0, 3] = .ok [11, 2, 0] ∧ idxMinus [1, 2, -3] [10, 0, 3] = .ok [-9, 2, -6] ∧
    idxPlus [0, 9223372036854775807] [0, 1] = .ub := by decide

theorem idxPlus_iff (a b c : Idx) (h : a.length = b.length) :
    idxPlus a b = .ok c ↔ c = List.zipWith (· + ·) a b ∧ ∀ x ∈ c, fits x = true := zipIdx_iff _ a b c h
theorem idxMinus_iff (a b c : Idx) (h : a.length = b.length) :
    idxMinus a b = .ok c ↔ c = List.zipWith (· - ·) a b ∧ ∀ x ∈ c, fits x = true := zipIdx_iff _ a b c h

/-- **C98** Adding an index and subtracting it again gives back the index, in either order -/
theorem C98_plus_minus_inverse (a b c : Idx) (h : a.length = b.length) (ha : ∀ x ∈ a, fits x = true) :
    (idxPlus a b = .ok c → idxMinus c b = .ok a ∧ idxPlus b a = .ok c) ∧ (idxMinus a b = .ok c → idxPlus c b = .ok a) := by
  have hz : ∀ (a b : List Int), a.length = b.length → List.zipWith (· - ·) (List.zipWith (· + ·) a b) b = a := by
    intro a
    induction a with
    | nil => intro b _; cases b <;> rfl
    | cons x a ih => intro b h; cases b with
      | nil => simp at h
      | cons y b => simp [ih b (by simpa using h)]
  have hz' : ∀ (a b : List Int), a.length = b.length → List.zipWith (· + ·) (List.zipWith (· - ·) a b) b = a := by
    intro a
    induction a with
    | nil => intro b _; cases b <;> rfl
    | cons x a ih => intro b h; cases b with
      | nil => simp at h
      | cons y b => simp [ih b (by simpa using h)]
  refine ⟨fun hp => ?_, fun hm => ?_⟩
  · obtain ⟨rfl, hf⟩ := (idxPlus_iff a b c h).mp hp
    refine ⟨(idxMinus_iff _ b a (by simp [h])).mpr ⟨(hz a b h).symm, ha⟩, (idxPlus_iff b a _ h.symm).mpr ⟨?_, hf⟩⟩
    exact List.zipWith_comm_of_comm (fun x y => add_comm x y)
  · obtain ⟨rfl, hf⟩ := (idxMinus_iff a b c h).mp hm
    exact (idxPlus_iff _ b a (by simp [h])).mpr ⟨(hz' a b h).symm, ha⟩

example : idxPlus [1, 2] [3, 4] = .ok [4, 6] ∧ idxMinus [4, 6] [3, 4] = .ok [1, 2] := by decide

theorem lin_plus (a b str : List Int) (h : a.length = b.length) :
    linLoop 0 (List.zipWith (· + ·) a b) str = linLoop 0 a str + linLoop 0 b str := by
  induction a generalizing b str with
  | nil => cases b with
    | nil => simp [linLoop]
    | cons _ _ => simp at h
  | cons x a ih =>
    cases b with
    | nil => simp at h
    | cons y b =>
      cases str with
      | nil => simp [linLoop]
      | cons s ss =>
        simp only [List.zipWith_cons_cons, linLoop]
        rw [linLoop_acc, linLoop_acc (0 + x * s), linLoop_acc (0 + y * s), ih b ss (by simpa using h)]
        ring

/-- **C98** The element at an index of a section is the element of the whole view at that index plus the origin -/
theorem C98_section (v w : View) (origin bnds idx c : Idx) (h : origin.length = idx.length)
    (hw : v.sectionFrom origin = .ok w ∨ v.section origin bnds = .ok w) (hc : idxPlus origin idx = .ok c) :
    w.addr idx = v.addr c := by
  obtain ⟨rfl, -⟩ := (idxPlus_iff origin idx c h).mp hc
  have key : ∀ ext, View.addr ⟨v.addr origin, ofStrides ext v.bnd.str⟩ idx = v.addr (List.zipWith (· + ·) origin idx) := by
    intro ext
    cases hd : v.data with
    | none => simp [View.addr, hd]
    | some p =>
      simp only [View.addr, hd, Option.map_some, linearize_eq, ofStrides, lin_plus origin idx v.bnd.str h, Option.some.injEq]
      omega
  rcases hw with hw | hw
  · rw [View.sectionFrom, Outcome.assert] at hw
    by_cases h1 : contains origin v.bnd.ext <;> simp [h1] at hw
    rw [← hw]; exact key _
  · rw [View.section, Outcome.assert, Outcome.assert] at hw
    by_cases h1 : contains origin v.bnd.ext <;> simp [h1] at hw
    by_cases h2 : idxLe (idxAdd origin bnds) v.bnd.ext <;> simp [h2] at hw
    rw [← hw]; exact key _

example : let v : View := ⟨some 0, ⟨[4, 5], [5, 1]⟩⟩
    v.section [1, 2] [2, 2] = .ok ⟨some 7, ⟨[2, 2], [5, 1]⟩⟩ ∧ idxPlus [1, 2] [1, 1] = .ok [2, 3] ∧
    View.addr ⟨some 7, ⟨[2, 2], [5, 1]⟩⟩ [1, 1] = some 13 ∧ v.addr [2, 3] = some 13 := by decide

/-- **C98** Negating is defined exactly if no component is the least `ptrdiff_t`, and undoes itself -/
theorem C98_negate_iff (a : Idx) (ha : ∀ x ∈ a, fits x = true) :
    ((∃ c, idxNeg a = .ok c) ↔ (-9223372036854775808 : Int) ∉ a) ∧
    ∀ c, idxNeg a = .ok c → idxNeg c = .ok a ∧ idxPlus a c = .ok (a.map fun _ => 0) := by
  refine ⟨?_, fun c hc => ?_⟩
  · constructor
    · rintro ⟨c, hc⟩ hm
      obtain ⟨rfl, hf⟩ := (mapIdx_iff _ a c).mp hc
      have := hf _ (List.mem_map_of_mem (f := fun x => -x) hm)
      simp [fits] at this
    · intro hm
      refine ⟨a.map fun x => -x, (mapIdx_iff _ a _).mpr ⟨rfl, fun x hx => ?_⟩⟩
      obtain ⟨y, hy, rfl⟩ := List.mem_map.mp hx
      have h1 := (fits_iff y).mp (ha y hy)
      have : y ≠ -9223372036854775808 := fun e => hm (e ▸ hy)
      exact (fits_iff _).mpr (by omega)
  · obtain ⟨rfl, hf⟩ := (mapIdx_iff _ a c).mp hc
    refine ⟨(mapIdx_iff _ _ a).mpr ⟨by simp, ha⟩, (idxPlus_iff a _ _ (by simp)).mpr ⟨?_, ?_⟩⟩
    · clear hc hf ha
      induction a with
      | nil => rfl
      | cons x a ih => simp [ih]
    · intro x hx
      obtain ⟨_, _, rfl⟩ := List.mem_map.mp hx
      decide

example : idxNeg [3, -4] = .ok [-3, 4] ∧ idxNeg [-9223372036854775808] = .ub := by decide

theorem toSigned_self (k : Int) : toSigned k = k ↔ fits k = true := by
  rw [fits_iff]; unfold toSigned; omega

/-- **C98** The components of an index made from integers are those integers exactly if they all fit -/
theorem C98_construct_iff (ks : List Int) : mkIdx ks = ks ↔
    ∀ k ∈ ks, (-9223372036854775808 : Int) ≤ k ∧ k ≤ 9223372036854775807 := by
  unfold mkIdx
  induction ks with
  | nil => simp
  | cons k ks ih =>
    simp only [List.map_cons, List.cons.injEq, ih, List.forall_mem_cons, toSigned_self, fits_iff]

example : mkIdx [3, 18446744073709551615] = [3, -1] := by decide

/-- **C98** `get` gives the component exactly if it is not negative; `at` throws exactly if there is no such component -/
theorem C98_get_at_iff (a : Idx) (ha : ∀ x ∈ a, fits x = true) :
    (∀ d (h : d < a.length), idxGet a d h = a[d] ↔ 0 ≤ a[d]) ∧
    ∀ i, (idxAt a i = .outOfRange ↔ a.length ≤ i) ∧ ∀ x, idxAt a i = .ok x ↔ a[i]? = some x := by
  refine ⟨fun d h => ?_, fun i => ?_⟩
  · have := (fits_iff _).mp (ha _ (List.getElem_mem h))
    unfold idxGet
    omega
  · unfold idxAt
    by_cases h : i < a.length
    · simp [h]
    · simp [h]; omega

example : idxGet [-1] 0 (by decide) = 18446744073709551615 ∧ idxAt [4, 5] 1 = .ok 5 ∧ idxAt [4, 5] 2 = .outOfRange := by decide

theorem times_eq (a : Idx) (s : Scalar) (k : Int) (h : s.convert = .ok k) : idxTimes a s = mapIdx (fun x => signed (x * k)) a := by
  simp [idxTimes, h]

/-- **C98** An index times an integer is the componentwise product, defined exactly if all products fit -/
theorem C98_times_int_iff (a c : Idx) (k : Int) (hk : fits k = true) :
    idxTimes a (.int k) = .ok c ↔ c.length = a.length ∧ ∀ i (h1 : i < c.length) (h2 : i < a.length),
      c[i] = a[i] * k ∧ -9223372036854775808 ≤ c[i] ∧ c[i] ≤ 9223372036854775807 := by
  rw [times_eq a (.int k) k (by rw [Scalar.convert, (toSigned_self k).mpr hk]), mapIdx_iff (fun x => x * k), map_comp]

example : idxTimes [1, -2] (.int 3) = .ok [3, -6] := by decide

/-- **C98** `n * a` is `a + ... + a` -/
theorem C98_times_repeated (a c : Idx) (n : Nat) (hn : fits n = true) (h : idxTimes a (.int n) = .ok c) : sumOf a n = .ok c := by
  rw [times_eq a (.int n) n (by rw [Scalar.convert, (toSigned_self _).mpr hn]), mapIdx_iff (fun x => x * (n : Int))] at h
  obtain ⟨rfl, hf⟩ := h
  have key : ∀ m : Nat, m ≤ n → sumOf a m = .ok (a.map fun x => x * (m : Int)) := by
    intro m
    induction m with
    | zero => intro _; simp [sumOf]
    | succ m ih =>
      intro hm
      rw [sumOf, ih (by omega)]
      simp only [Outcome.bind_ok]
      rw [idxPlus_iff _ _ _ (by simp)]
      refine ⟨?_, ?_⟩
      · clear ih hf
        induction a with
        | nil => rfl
        | cons x a ih => simp only [List.map_cons, List.zipWith_cons_cons, ← ih]; congr 1; push_cast; ring
      · intro y hy
        obtain ⟨x, hx, rfl⟩ := List.mem_map.mp hy
        have h1 := (fits_iff _).mp (hf _ (List.mem_map_of_mem hx))
        refine (fits_iff _).mpr ?_
        have hle : ((m + 1 : Nat) : Int) ≤ n := by omega
        have h0 : (0 : Int) ≤ ((m + 1 : Nat) : Int) := by omega
        rcases le_total 0 x with h | h
        · have := mul_le_mul_of_nonneg_left hle h
          have := mul_nonneg h h0
          constructor <;> omega
        · have := mul_le_mul_of_nonpos_left hle h
          have := mul_nonpos_of_nonpos_of_nonneg h h0
          constructor <;> omega
  exact key n le_rfl

example : idxTimes [1, -2] (.int (3 : Nat)) = .ok [3, -6] ∧ sumOf [1, -2] 3 = .ok [3, -6] := by decide

/-- **C98** Multiplying by a fraction is not multiplying by it: half of four is nothing -/
theorem C98_times_real_fails : idxTimes [4] (.real (some (1 / 2))) = .ok [0] := by
  simp [idxTimes, Scalar.convert, truncate, mapIdx]
  decide

/-- **C98** An index times a finite floating point number is the true product exactly if the number is whole or all
components are zero -/
theorem C98_times_real_iff (a c : Idx) (q : Rat) (h : idxTimes a (.real (some q)) = .ok c) (ha : a ≠ []) :
    c.length = a.length ∧ ((∀ i (h1 : i < c.length) (h2 : i < a.length), (c[i] : Rat) = a[i] * q) ↔
      (∃ z : Int, q = z) ∨ ∀ x ∈ a, x = 0) := by
  cases hs : signed (truncate q) with
  | ok k =>
    obtain ⟨rfl, hf⟩ := (signed_iff _ _).mp hs
    rw [times_eq a _ _ (by rw [Scalar.convert]; exact hs), mapIdx_iff (fun x => x * truncate q)] at h
    obtain ⟨rfl, -⟩ := h
    refine ⟨by simp, ?_⟩
    have hz : (∃ z : Int, q = z) ↔ (truncate q : Rat) = q := by
      constructor
      · rintro ⟨z, rfl⟩
        simp [truncate]
      · exact fun h => ⟨_, h.symm⟩
    rw [hz]
    constructor
    · intro hc
      by_cases h0 : ∀ x ∈ a, x = 0
      · exact .inr h0
      · left
        push Not at h0
        obtain ⟨x, hx, hx0⟩ := h0
        obtain ⟨i, hi, rfl⟩ := List.getElem_of_mem hx
        have := hc i (by simpa using hi) hi
        simp only [List.getElem_map, Int.cast_mul] at this
        exact mul_left_cancel₀ (by exact_mod_cast hx0) this
    · rintro (h1 | h1) i hi hi2
      · simp [h1]
      · have := h1 _ (List.getElem_mem hi2)
        simp [this]
  | _ =>
    cases a with
    | nil => exact absurd rfl ha
    | cons x a =>
      simp [idxTimes, Scalar.convert, hs, mapIdx] at h

/-- by two and a half, and by three -/
example : idxTimes [4, 2] (.real (some ⟨5, 2, by decide, by decide⟩)) = .ok [8, 4] ∧
    idxTimes [4, 2] (.real (some ⟨3, 1, by decide, by decide⟩)) = .ok [12, 6] := by decide

theorem over_eq (a : Idx) (s : Scalar) (k : Int) (h : s.convert = .ok k) (hk : k ≠ 0) :
    idxOver a s = mapIdx (fun x => signed (x.tdiv k)) a := by
  simp [idxOver, h, hk]

theorem tdiv_fits (x k : Int) (hx : fits x = true) (hk : k ≠ 0) :
    fits (x.tdiv k) = true ↔ ¬ (k = -1 ∧ x = -9223372036854775808) := by
  have hx' := (fits_iff x).mp hx
  rw [fits_iff]
  have habs : (x.tdiv k).natAbs ≤ x.natAbs := by
    rw [Int.natAbs_tdiv]; exact Nat.div_le_self _ _
  by_cases h1 : k = -1
  · subst h1
    rw [show x.tdiv (-1) = -x by simp [Int.tdiv_neg]]
    omega
  · by_cases hm : x = -9223372036854775808
    · by_cases h2 : k = 1
      · subst h2; simp; omega
      · have : (x.tdiv k).natAbs ≤ x.natAbs / 2 := by
          rw [Int.natAbs_tdiv]
          exact Nat.div_le_div_left (by omega) (by omega)
        subst hm
        constructor
        · intro _ h; exact h1 h.1
        · intro _
          have h3 : (-9223372036854775808 : Int).natAbs / 2 = 4611686018427387904 := by decide
          omega
    · constructor
      · intro _ h; exact hm h.2
      · intro _; omega

/-- **C98** Dividing by an integer is defined exactly if it is not zero and the least `ptrdiff_t` is not divided by minus one;
it undoes multiplying -/
theorem C98_over_int_iff (a : Idx) (k : Int) (ha : ∀ x ∈ a, fits x = true) (hne : a ≠ []) (hk : fits k = true) :
    ((∃ c, idxOver a (.int k) = .ok c) ↔ k ≠ 0 ∧ ¬ (k = -1 ∧ (-9223372036854775808 : Int) ∈ a)) ∧
    (k ≠ 0 → ∀ c, idxTimes a (.int k) = .ok c → idxOver c (.int k) = .ok a) ∧
    ∀ c, idxOver a (.int k) = .ok c → c.length = a.length ∧ ∀ i (h1 : i < c.length) (h2 : i < a.length),
      |c[i] * k| ≤ |a[i]| ∧ |a[i] - c[i] * k| < |k| := by
  have hc : (Scalar.int k).convert = .ok k := by rw [Scalar.convert, (toSigned_self k).mpr hk]
  refine ⟨?_, ?_, ?_⟩
  · by_cases h0 : k = 0
    · subst h0
      cases a with
      | nil => exact absurd rfl hne
      | cons x a => simp [idxOver, hc, mapIdx]
    · rw [over_eq a _ k hc h0]
      simp only [mapIdx_iff (fun x => x.tdiv k), exists_eq_left, List.mem_map, forall_exists_index, and_imp,
        forall_apply_eq_imp_iff₂, ne_eq, h0, not_false_eq_true, true_and]
      constructor
      · rintro h ⟨h1, h2⟩
        exact (tdiv_fits _ k (ha _ h2) h0).mp (h _ h2) ⟨h1, rfl⟩
      · intro h x hx
        exact (tdiv_fits x k (ha x hx) h0).mpr fun e => h ⟨e.1, e.2 ▸ hx⟩
  · intro h0 c hm
    rw [times_eq a _ k hc, mapIdx_iff (fun x => x * k)] at hm
    obtain ⟨rfl, -⟩ := hm
    rw [over_eq _ _ k hc h0, mapIdx_iff (fun x => x.tdiv k)]
    refine ⟨?_, ha⟩
    rw [List.map_map]
    conv_lhs => rw [← List.map_id a]
    apply List.map_congr_left
    intro x _
    simp [Int.mul_tdiv_cancel _ h0]
  · intro c hd
    have h0 : k ≠ 0 := by
      rintro rfl
      cases a with
      | nil => exact absurd rfl hne
      | cons x a => simp [idxOver, hc, mapIdx] at hd
    rw [over_eq a _ k hc h0, mapIdx_iff (fun x => x.tdiv k)] at hd
    obtain ⟨rfl, -⟩ := hd
    refine ⟨by simp, fun i h1 h2 => ?_⟩
    simp only [List.getElem_map]
    generalize a[i] = x
    have e1 : x - x.tdiv k * k = x.tmod k := by rw [Int.tmod_def]; ring
    rw [e1]
    constructor
    · rw [abs_mul, Int.abs_eq_natAbs, Int.abs_eq_natAbs, Int.abs_eq_natAbs, Int.natAbs_tdiv]
      exact_mod_cast Nat.div_mul_le_self _ _
    · rw [Int.abs_eq_natAbs, Int.abs_eq_natAbs, Int.natAbs_tmod]
      exact_mod_cast Nat.mod_lt _ (Int.natAbs_pos.mpr h0)

example : idxOver [7, -7] (.int 2) = .ok [3, -3] ∧ idxOver [7] (.int 0) = .ub ∧ idxOver [-9223372036854775808] (.int (-1)) = .ub := by
  decide

/-- **C98** Dividing by a number between minus one and one divides by zero, though the quotient may well be an index -/
theorem C98_over_real_fails (a : Idx) (hne : a ≠ []) (q : Rat) (hq : -1 < q ∧ q < 1) : idxOver a (.real (some q)) = .ub := by
  have ht : truncate q = 0 := by
    have hd : (0 : Rat) < q.den := by exact_mod_cast q.den_pos
    have h1 := Rat.num_div_den q
    have h2 : (q.num : Rat) = q * q.den := by field_simp at h1 ⊢; exact h1
    have h3 : (q.num : Rat) < q.den := by rw [h2]; nlinarith
    have h4 : -(q.den : Rat) < q.num := by rw [h2]; nlinarith
    have h5 : q.num < q.den := by exact_mod_cast h3
    have h6 : -(q.den : Int) < q.num := by exact_mod_cast h4
    unfold truncate
    apply Int.natAbs_eq_zero.mp
    rw [Int.natAbs_tdiv]
    exact Nat.div_eq_of_lt (by omega)
  cases a with
  | nil => exact absurd rfl hne
  | cons x a =>
    have : signed 0 = .ok 0 := by decide
    simp [idxOver, Scalar.convert, ht, mapIdx, this]

example : -1 < (1 / 2 : Rat) ∧ (1 / 2 : Rat) < 1 := by constructor <;> norm_num

end Verif.ArrayView
