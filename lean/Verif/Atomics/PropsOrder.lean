import Verif.Atomics.PropsCalls

/-!
# Minimum and maximum of operands that are not of one ordered type
-/

namespace Verif.Atomics

/-! ## an `int` variable updated with an `unsigned` value -/

/-- `atomic<int>` with an `unsigned` argument: the comparisons `b < a`, `a < b` of `mineq` and
`maxeq` (atomics.h:1001-1014) convert the `int` to `unsigned`; `A(b)` reinterprets.  Only
what these two functions use is given. -/
def intUnsigned : Lang (BitVec 32) (BitVec 32) where
  assign _ := none
  inc := none
  dec := none
  ltXT := some fun b a => b.toNat < a.toNat
  ltTX := some fun a b => a.toNat < b.toNat
  conv := some id
  fetch _ := none
  stdInc := none
  stdDec := none

/-- C49 fails for mixed types: the minimum of -1 and 1u is 1, the maximum of 5 and 3000000000u is
a negative number -/
theorem C49_mixed_sign_fails : ∃ r r', compile intUnsigned lp64 4 .strong (.member .min none (some 1) .none) = some r ∧
    compile intUnsigned lp64 4 .strong (.member .max none (some 3000000000) .none) = some r' ∧
    (r.2.1 (-1)).1.toInt = 1 ∧ (r'.2.1 5).1.toInt = -1294967296 :=
  ⟨_, _, rfl, rfl, by decide, by decide⟩

/-- C49, exact condition for an `int` variable and an `unsigned` argument: the update leaves the
smaller of the two numbers exactly if the variable was not negative or, as an unsigned number,
not greater than the argument -/
theorem C49_mixed_min_iff (x v : BitVec 32) {r} (s : Tag) (hs : s = .strong ∨ s = .weak)
    (h : compile intUnsigned lp64 4 s (.member .min none (some x) .none) = some r) :
    (r.2.1 v).1.toInt = min v.toInt (x.toNat : Int) ↔ 0 ≤ v.toInt ∨ v.toNat ≤ x.toNat := by
  have hr : r.2.1 = fun v => if x.toNat < v.toNat then (x, x) else (v, v) := by
    have := ((C92_meaning intUnsigned lp64 (by simp [Sizes.Ordered, lp64]) 4 s .min none (some x) .none
      (by rcases hs with rfl | rfl <;> decide) r).mp
      (((C92_forms intUnsigned lp64 4 s none (some x) .none).1 .min).symm.trans h)).2.2.1
    simp only [documented, intUnsigned, Option.bind_some, Option.map_some, Option.some.injEq] at this
    rw [← this]
    funext v
    simp
  rw [hr]
  have hv := v.isLt
  have hx := x.isLt
  simp only [BitVec.toInt_eq_toNat_cond]
  split <;> simp only [] <;> split <;> (try split) <;> omega

example : ∃ r, compile intUnsigned lp64 4 .strong (.member .min none (some 3) .none) = some r ∧
    (r.2.1 7).1.toInt = min 7 3 := by
  obtain ⟨r, hr⟩ : ∃ r, compile intUnsigned lp64 4 .strong (.member .min none (some 3) .none) = some r := ⟨_, rfl⟩
  exact ⟨r, hr, (C49_mixed_min_iff 3 7 .strong (.inl rfl) hr).mpr (.inl (by decide))⟩

/-- C49, exact condition for the maximum: the update leaves the larger of the two numbers exactly
if the variable was not negative and the argument fits in an `int` -/
theorem C49_mixed_max_iff (x v : BitVec 32) {r} (s : Tag) (hs : s = .strong ∨ s = .weak)
    (h : compile intUnsigned lp64 4 s (.member .max none (some x) .none) = some r) :
    (r.2.1 v).1.toInt = max v.toInt (x.toNat : Int) ↔ 0 ≤ v.toInt ∧ x.toNat < 2 ^ 31 := by
  have hr : r.2.1 = fun v => if v.toNat < x.toNat then (x, x) else (v, v) := by
    have := ((C92_meaning intUnsigned lp64 (by simp [Sizes.Ordered, lp64]) 4 s .max none (some x) .none
      (by rcases hs with rfl | rfl <;> decide) r).mp
      (((C92_forms intUnsigned lp64 4 s none (some x) .none).1 .max).symm.trans h)).2.2.1
    simp only [documented, intUnsigned, Option.bind_some, Option.map_some, Option.some.injEq] at this
    rw [← this]
    funext v
    simp
  rw [hr]
  have hv := v.isLt
  have hx := x.isLt
  simp only [BitVec.toInt_eq_toNat_cond]
  split <;> simp only [] <;> split <;> (try split) <;> omega

example : ∃ r, compile intUnsigned lp64 4 .weak (.member .max none (some 3) .none) = some r ∧
    (r.2.1 7).1.toInt = max 7 3 := by
  obtain ⟨r, hr⟩ : ∃ r, compile intUnsigned lp64 4 .weak (.member .max none (some 3) .none) = some r := ⟨_, rfl⟩
  exact ⟨r, hr, (C49_mixed_max_iff 3 7 .weak (.inr rfl) hr).mpr (by decide)⟩

/-! ## values that may be NaN -/

/-- `mineq`, atomics.h:1001-1005, on floating values: `none` is NaN, which is not less than anything,
nor anything less than it -/
def mineqNaN {A : Type} [LinearOrder A] (a b : Option A) : Option A :=
  match b, a with
  | some y, some x => if y < x then some y else some x
  | _, a => a

theorem serial_min_nan {ι A : Type} [DecidableEq ι] [LinearOrder A] (l : List (ι × Op Unit (Option A) × Option A)) :
    ∀ (m m' : Unit → Option A) (arg : ι × Op Unit (Option A) × Option A → Option A),
    (∀ e ∈ l, e.2.1.f = binary (mineqNaN · (arg e))) → Serial m l m' →
    (m () = none → m' () = none) ∧
    ∀ a, m () = some a → ∃ c, m' () = some c ∧ (c = a ∨ ∃ e ∈ l, arg e = some c) ∧ c ≤ a ∧
      ∀ e ∈ l, ∀ b, arg e = some b → c ≤ b := by
  induction l with
  | nil =>
    intro m m' arg _ hs
    simp only [Serial] at hs
    subst hs
    exact ⟨id, fun a ha => ⟨a, ha, .inl rfl, le_rfl, by simp⟩⟩
  | cons e l ih =>
    intro m m' arg he hs
    have hb := he e (by simp)
    obtain ⟨h1, h2⟩ := ih _ m' arg (fun e' h' => he e' (by simp [h'])) hs.2
    simp only [hb, binary, Function.update_self] at h1 h2
    constructor
    · intro hm
      apply h1
      rw [hm]
      unfold mineqNaN
      split <;> simp_all
    · intro a ha
      rw [ha] at h2
      rcases hae : arg e with _ | y
      · obtain ⟨c, g1, g2, g3, g4⟩ := h2 a (by rw [hae]; rfl)
        refine ⟨c, g1, ?_, g3, ?_⟩
        · rcases g2 with g2 | ⟨e', he', g2⟩
          · exact .inl g2
          · exact .inr ⟨e', by simp [he'], g2⟩
        · intro e' he' b hb'
          rcases List.mem_cons.mp he' with rfl | he'
          · rw [hae] at hb'; simp at hb'
          · exact g4 e' he' b hb'
      · obtain ⟨c, g1, g2, g3, g4⟩ := h2 (min a y) (by
          rw [hae]
          simp only [mineqNaN]
          split
          · next h => rw [min_eq_right h.le]
          · next h => rw [min_eq_left (not_lt.mp h)])
        refine ⟨c, g1, ?_, g3.trans (min_le_left _ _), ?_⟩
        · rcases g2 with g2 | ⟨e', he', g2⟩
          · rcases min_choice a y with hm | hm
            · exact .inl (g2.trans hm)
            · exact .inr ⟨e, by simp, by rw [hae, g2, hm]⟩
          · exact .inr ⟨e', by simp [he'], g2⟩
        · intro e' he' b hb'
          rcases List.mem_cons.mp he' with rfl | he'
          · rw [hae, Option.some.injEq] at hb'
            exact hb' ▸ g3.trans (min_le_right _ _)
          · exact g4 e' he' b hb'

/-- C49 with NaN: concurrent minimum updates of a floating variable by any number of threads.  A
variable that is NaN stays NaN whatever the arguments; otherwise NaN arguments are ignored, and
the variable ends as the least of its initial value and the arguments that are numbers -/
theorem C49_min_nan {ι A : Type} [DecidableEq ι] [LinearOrder A] {sc : Bool} (a0 : Option A)
    (args : ι → List (Scheme × Option A)) (hs : ∀ i, ∀ p ∈ args i, p.1 = .strong ∨ p.1 = .weak)
    {tr : List (Event ι Unit (Option A))} {s : State ι Unit (Option A)}
    (h : Exec sc (init (fun _ => a0) fun i => (args i).map fun p => ⟨p.1, (), binary (mineqNaN · p.2)⟩) tr s)
    (hf : Finished s) :
    (a0 = none → s.cur () = none) ∧
    ∀ a, a0 = some a → ∃ c, s.cur () = some c ∧ (c = a ∨ ∃ i, ∃ p ∈ args i, p.2 = some c) ∧ c ≤ a ∧
      ∀ i, ∀ p ∈ args i, ∀ b, p.2 = some b → c ≤ b := by
  have hp : ∀ i, ∀ op ∈ (args i).map (fun p => (⟨p.1, (), binary (mineqNaN · p.2)⟩ : Op Unit (Option A))),
      op.scheme.atomic = true := by
    intro i op ho
    obtain ⟨p, hp, rfl⟩ := List.mem_map.mp ho
    rcases hs i p hp with h | h <;> simp [h, Scheme.atomic]
  obtain ⟨h1, _, h3⟩ := C48_mixed_schemes_partial hp h
  have h3 := h3 hf
  have hl : ∀ e ∈ commits tr, ∃ p ∈ args e.1, e.2.1.f = binary (mineqNaN · p.2) := by
    intro e he
    have : e.2.1 ∈ opsOf e.1 (commits tr) := by
      rw [opsOf, List.mem_map]
      exact ⟨e, by simp [he], rfl⟩
    rw [h3] at this
    obtain ⟨p, hp, hpe⟩ := List.mem_map.mp this
    exact ⟨p, hp, by rw [← hpe]⟩
  classical
  let arg : ι × Op Unit (Option A) × Option A → Option A := fun e =>
    if he : ∃ p ∈ args e.1, e.2.1.f = binary (mineqNaN · p.2) then he.choose.2 else none
  have harg : ∀ e ∈ commits tr, (∃ p ∈ args e.1, p.2 = arg e) ∧ e.2.1.f = binary (mineqNaN · (arg e)) := by
    intro e he
    have hx := hl e he
    simp only [arg, dif_pos hx]
    exact ⟨⟨_, hx.choose_spec.1, rfl⟩, hx.choose_spec.2⟩
  obtain ⟨g1, g2⟩ := serial_min_nan (commits tr) _ _ arg (fun e he => (harg e he).2) h1
  refine ⟨g1, fun a ha => ?_⟩
  obtain ⟨c, k1, k2, k3, k4⟩ := g2 a ha
  refine ⟨c, k1, ?_, k3, ?_⟩
  · rcases k2 with k2 | ⟨e, he, k2⟩
    · exact .inl k2
    · obtain ⟨p, hp, hpe⟩ := (harg e he).1
      exact .inr ⟨e.1, p, hp, hpe.trans k2⟩
  · intro i p hp b hb
    have : (⟨p.1, (), binary (mineqNaN · p.2)⟩ : Op Unit (Option A)) ∈ opsOf i (commits tr) := by
      rw [h3]; exact List.mem_map.mpr ⟨p, hp, rfl⟩
    rw [opsOf, List.mem_map] at this
    obtain ⟨e, he, hop⟩ := this
    have he := List.mem_of_mem_filter he
    have hfe := (harg e he).2
    rw [hop] at hfe
    by_contra hlt
    rw [not_le] at hlt
    -- at the value `c` the two descriptions of the update differ unless `arg e` is a smaller number
    have e1 := congrArg Prod.fst (congrFun hfe (some c))
    simp only [binary, hb] at e1
    rcases hae : arg e with _ | y
    · rw [hae] at e1
      simp [mineqNaN, hlt] at e1
      exact hlt.ne e1
    · rw [hae] at e1
      have hc := k4 e he y hae
      simp [mineqNaN, hlt, not_lt.mpr hc] at e1
      exact hlt.ne e1

/-- C49 fails with NaN: a variable that was never set to a number takes no minimum -/
theorem C49_nan_initial_fails : ∃ tr s, Exec true (init (fun _ : Unit => (none : Option Int))
      fun _ : Unit => [⟨.strong, (), binary (mineqNaN · (some 3))⟩]) tr s ∧ Finished s ∧ s.cur () = none := by
  have h : Exec true (init (fun _ : Unit => (none : Option Int))
      fun _ : Unit => ([(Scheme.strong, some 3)] : List (Scheme × Option Int)).map fun p => ⟨p.1, (), binary (mineqNaN · p.2)⟩) _ _ :=
    .snoc () (.snoc () .nil (.load ⟨.strong, (), binary (mineqNaN · (some 3))⟩ [] none rfl (.inl rfl) (.inl rfl)))
      (.casOk ⟨.strong, (), binary (mineqNaN · (some 3))⟩ [] none rfl rfl)
  exact ⟨_, _, h, fun _ => rfl, (C49_min_nan none (fun _ => [(.strong, some 3)]) (by simp) h (fun _ => rfl)).1 rfl⟩

end Verif.Atomics
