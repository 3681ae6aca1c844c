import Verif.Atomics.Calls
import Verif.Atomics.PropsMix
import Mathlib.Data.BitVec

/-!
# Properties of the call forms of atomic variables: which calls compile and what they do
-/

namespace Verif.Atomics

section
variable {T X : Type}

/-! ## every form of a call is the same update -/

/-- C92: `x.add(v)` and `add(x, v)`, with any name, scheme override and memory orders, are one
update or both do not compile; `inc` and `dec` are `preinc` and `predec`; and an operator is the
member function of its documented name -/
theorem C92_forms (L : Lang T X) (z : Sizes) (n : Nat) (own : Tag) (s : Option Tag) (arg : Option X) (o : Orders) :
    (∀ nm, compile L z n own (.member nm s arg o) = compile L z n own (.function nm s arg o)) ∧
    compile L z n own (.function .inc s arg o) = compile L z n own (.function .preinc s arg o) ∧
    compile L z n own (.function .dec s arg o) = compile L z n own (.function .predec s arg o) ∧
    (∀ p ∈ [(OpTok.assign .plus, Name.add), (.assign .minus, .sub), (.assign .times, .mul), (.assign .div, .div),
      (.assign .mod, .mod), (.assign .shl, .lshift), (.assign .shr, .rshift), (.assign .band, .andeq),
      (.assign .bor, .oreq), (.assign .bxor, .xoreq), (.preInc, .preinc), (.postInc, .postinc), (.preDec, .predec),
      (.postDec, .postdec)],
      compile L z n own (.operator p.1 arg) = compile L z n own (.member p.2 none arg .none)) := by
  refine ⟨fun nm => ?_, rfl, rfl, ?_⟩
  · cases s <;> rfl
  · simp only [List.forall_mem_cons, List.not_mem_nil, false_imp_iff, implies_true, and_true]
    refine ⟨rfl, rfl, rfl, rfl, rfl, rfl, rfl, rfl, rfl, rfl, rfl, rfl, rfl, rfl⟩

/-- what the documentation (doc/ristra-atomics.tex, "Operations") says a function does, in terms
of the operators of the type: the new value and the value returned -/
def documented (L : Lang T X) : Name → Option X → Option (T → T × T)
  | .add, some x => (L.assign .plus).map fun g v => (g v x, g v x)
  | .sub, some x => (L.assign .minus).map fun g v => (g v x, g v x)
  | .mul, some x => (L.assign .times).map fun g v => (g v x, g v x)
  | .div, some x => (L.assign .div).map fun g v => (g v x, g v x)
  | .mod, some x => (L.assign .mod).map fun g v => (g v x, g v x)
  | .lshift, some x => (L.assign .shl).map fun g v => (g v x, g v x)
  | .rshift, some x => (L.assign .shr).map fun g v => (g v x, g v x)
  | .andeq, some x => (L.assign .band).map fun g v => (g v x, g v x)
  | .oreq, some x => (L.assign .bor).map fun g v => (g v x, g v x)
  | .xoreq, some x => (L.assign .bxor).map fun g v => (g v x, g v x)
  | .min, some x => L.ltXT.bind fun lt => L.conv.map fun cv v => if lt x v then (cv x, cv x) else (v, v)
  | .max, some x => L.ltTX.bind fun lt => L.conv.map fun cv v => if lt v x then (cv x, cv x) else (v, v)
  | .inc, none => L.inc.map fun g v => (g v, g v)
  | .preinc, none => L.inc.map fun g v => (g v, g v)
  | .postinc, none => L.inc.map fun g v => (g v, v)
  | .dec, none => L.dec.map fun g v => (g v, g v)
  | .predec, none => L.dec.map fun g v => (g v, g v)
  | .postdec, none => L.dec.map fun g v => (g v, v)
  | _, _ => none

theorem plain_eq (L : Lang T X) (nm : Name) (arg : Option X) : plain L nm.functor arg = documented L nm arg := by
  cases nm <;> cases arg <;> simp only [plain, Name.functor, Functor.body, documented, Bool.false_eq_true, if_false, if_true] <;>
    first
      | rfl
      | (rcases L.ltXT with _ | lt <;> rcases L.conv with _ | cv <;> simp <;> funext v <;> simp only [binary] <;> split <;> rfl)
      | (rcases L.ltTX with _ | lt <;> rcases L.conv with _ | cv <;> simp <;> funext v <;> simp only [binary] <;> split <;> rfl)

/-- sizes as the language has them: `sizeof(signed char) <= sizeof(short) <= ...` -/
def Sizes.Ordered (z : Sizes) : Prop := z.schar ≤ z.short ∧ z.short ≤ z.int ∧ z.int ≤ z.long ∧ z.long ≤ z.llong

theorem punOverloads_spec (z : Sizes) (hz : z.Ordered) (n : Nat) :
    (punOverloads z n = [] ∧ ∀ t, z.size t ≠ n) ∨ ∃ t, punOverloads z n = [t] ∧ z.size t = n := by
  obtain ⟨h1, h2, h3, h4⟩ := hz
  unfold punOverloads
  by_cases a : n = z.llong ∧ n ≠ z.long
  · right
    refine ⟨.llong, ?_, a.1.symm⟩
    rw [if_pos a, if_neg (by omega), if_neg (by omega), if_neg (by omega), if_neg (by omega)]
    rfl
  · rw [if_neg a]
    by_cases b : n = z.long ∧ n ≠ z.int
    · right
      refine ⟨.long, ?_, b.1.symm⟩
      rw [if_pos b, if_neg (by omega), if_neg (by omega), if_neg (by omega)]
      rfl
    · rw [if_neg b]
      by_cases c : n = z.int ∧ n ≠ z.short
      · right
        refine ⟨.int, ?_, c.1.symm⟩
        rw [if_pos c, if_neg (by omega), if_neg (by omega)]
        rfl
      · rw [if_neg c]
        by_cases d : n = z.short ∧ n ≠ z.schar
        · right
          refine ⟨.short, ?_, d.1.symm⟩
          rw [if_pos d, if_neg (by omega)]
          rfl
        · rw [if_neg d]
          by_cases e : n = z.schar
          · right
            refine ⟨.schar, ?_, e.symm⟩
            rw [if_pos e]
            rfl
          · left
            rw [if_neg e]
            refine ⟨rfl, fun t => ?_⟩
            cases t <;> simp only [Sizes.size] <;> omega

/-- C92: on every platform the punned schemes are never ambiguous: a type whose size is the size
of an integer type has exactly one overload, which puns it to an integer of that size; a type of
another size has none -/
theorem C92_pun_overload (z : Sizes) (hz : z.Ordered) (n : Nat) :
    (punOverloads z n).length ≤ 1 ∧ (∀ p, punned z n = some p → z.size p = n) ∧
    ((punned z n).isSome = true ↔ ∃ t, z.size t = n) := by
  rcases punOverloads_spec z hz n with ⟨h, h'⟩ | ⟨t, h, h'⟩
  · refine ⟨by simp [h], by simp [punned, h], ?_⟩
    simp only [punned, h, Option.isSome_none, Bool.false_eq_true, false_iff, not_exists]
    exact h'
  · refine ⟨by simp [h], ?_, ?_⟩
    · intro p hp
      simp only [punned, h, Option.some.injEq] at hp
      exact hp ▸ h'
    · simp only [punned, h, Option.isSome_some, true_iff]
      exact ⟨t, h'⟩

/-- 64-bit Linux -/
def lp64 : Sizes := ⟨1, 2, 4, 8, 8⟩

example : lp64.Ordered ∧ punned lp64 8 = some .long ∧ punned lp64 16 = none := by
  refine ⟨by simp [Sizes.Ordered, lp64], by decide, by decide⟩

/-- where the size conditions alone would not do: if `int` were smaller than `short` -/
example : (punOverloads ⟨1, 4, 2, 4, 8⟩ 4).length = 2 := by decide

/-! ## what compiles, and what it does -/

/-- the scheme a tag asks for, except `cpp` -/
def Tag.scheme : Tag → Scheme
  | .weak | .weakPun => .weak
  | .lock => .lock
  | .serial => .serial
  | _ => .strong

/-- C92: under every scheme other than `cpp` a call compiles exactly if its type has the operation
(with the argument the operation needs) and the scheme takes the orders written: any number for
compare-exchange, provided a punned type has the size of an integer type, and none for `lock`
and `serial`.  It then performs the documented operation under that scheme; an order not
written is sequentially consistent. -/
theorem C92_meaning (L : Lang T X) (z : Sizes) (hz : z.Ordered) (n : Nat) (own : Tag) (nm : Name) (s : Option Tag)
    (arg : Option X) (o : Orders) (hcpp : s.getD own ≠ .cpp) (r : Scheme × (T → T × T) × Used) :
    compile L z n own (.function nm s arg o) = some r ↔
      (((s.getD own = .strongPun ∨ s.getD own = .weakPun) → ∃ t, z.size t = n) ∧
       ((s.getD own = .lock ∨ s.getD own = .serial) → o = .none)) ∧
      r.1 = (s.getD own).scheme ∧ documented L nm arg = some r.2.1 ∧
      r.2.2 = (if s.getD own = .lock ∨ s.getD own = .serial then .no
        else match o with | .none => .cas .seqCst | .one m => .cas m | .two a b => .cas2 a b) := by
  have hp : pickTag own s = s.getD own := by cases s <;> rfl
  have hpun := (C92_pun_overload z hz n).2.2
  have hu : casUsed o = (match o with | .none => Used.cas .seqCst | .one m => .cas m | .two a b => .cas2 a b) := by
    cases o <;> rfl
  rw [compile, hp, ← hu]
  obtain ⟨sch, f, u⟩ := r
  generalize s.getD own = tag at *
  cases tag
  · exact absurd rfl hcpp
  all_goals
    simp only [applyCall, plain_eq, Tag.scheme, reduceCtorEq, or_self, or_true, true_or, false_or, or_false,
      if_true, if_false, false_imp_iff, true_imp_iff, true_and, and_true, Option.map_eq_some_iff, Prod.mk.injEq]
  · constructor
    · rintro ⟨a, ha, rfl, rfl, rfl⟩; exact ⟨rfl, ha, rfl⟩
    · rintro ⟨rfl, ha, rfl⟩; exact ⟨_, ha, rfl, rfl, rfl⟩
  · by_cases hs : (punned z n).isSome = true
    · rw [if_pos hs]
      simp only [Option.map_eq_some_iff, Prod.mk.injEq]
      constructor
      · rintro ⟨a, ha, rfl, rfl, rfl⟩; exact ⟨hpun.mp hs, rfl, ha, rfl⟩
      · rintro ⟨_, rfl, ha, rfl⟩; exact ⟨_, ha, rfl, rfl, rfl⟩
    · rw [if_neg hs]
      constructor
      · intro h; simp at h
      · rintro ⟨h, _⟩; exact absurd (hpun.mpr h) hs
  · constructor
    · rintro ⟨a, ha, rfl, rfl, rfl⟩; exact ⟨rfl, ha, rfl⟩
    · rintro ⟨rfl, ha, rfl⟩; exact ⟨_, ha, rfl, rfl, rfl⟩
  · by_cases hs : (punned z n).isSome = true
    · rw [if_pos hs]
      simp only [Option.map_eq_some_iff, Prod.mk.injEq]
      constructor
      · rintro ⟨a, ha, rfl, rfl, rfl⟩; exact ⟨hpun.mp hs, rfl, ha, rfl⟩
      · rintro ⟨_, rfl, ha, rfl⟩; exact ⟨_, ha, rfl, rfl, rfl⟩
    · rw [if_neg hs]
      constructor
      · intro h; simp at h
      · rintro ⟨h, _⟩; exact absurd (hpun.mpr h) hs
  all_goals
    by_cases ho : o = .none
    · rw [if_pos ho]
      simp only [Option.map_eq_some_iff, Prod.mk.injEq]
      constructor
      · rintro ⟨a, ha, rfl, rfl, rfl⟩; exact ⟨ho, rfl, ha, rfl⟩
      · rintro ⟨_, rfl, ha, rfl⟩; exact ⟨_, ha, rfl, rfl, rfl⟩
    · rw [if_neg ho]
      constructor
      · intro h; simp at h
      · rintro ⟨h, _⟩; exact absurd h ho

/-- the members of `std::atomic` behind the functions, by the documentation of `cpp` -/
def nativeDocumented (L : Lang T X) : Name → Option X → Option (T → T × T)
  | .add, some x => (L.fetch .add).map fun g v => (g v x, g v x)
  | .sub, some x => (L.fetch .sub).map fun g v => (g v x, g v x)
  | .andeq, some x => (L.fetch .band).map fun g v => (g v x, g v x)
  | .oreq, some x => (L.fetch .bor).map fun g v => (g v x, g v x)
  | .xoreq, some x => (L.fetch .bxor).map fun g v => (g v x, g v x)
  | .inc, none => L.stdInc.map fun g v => (g v, g v)
  | .preinc, none => L.stdInc.map fun g v => (g v, g v)
  | .postinc, none => L.stdInc.map fun g v => (g v, v)
  | .dec, none => L.stdDec.map fun g v => (g v, g v)
  | .predec, none => L.stdDec.map fun g v => (g v, g v)
  | .postdec, none => L.stdDec.map fun g v => (g v, v)
  | _, _ => none

/-- the functions that take no argument -/
def Name.unary : Name → Bool
  | .inc | .preinc | .postinc | .dec | .predec | .postdec => true
  | _ => false

/-- C92: under `cpp` a call compiles exactly if `std::atomic` has the operation, with at most one
memory order, and with none for increments and decrements; the order is passed on.  In
particular no multiplication, division, shift, minimum or maximum, and no increment with a
memory order, compiles under `cpp`. -/
theorem C92_cpp (L : Lang T X) (z : Sizes) (n : Nat) (own : Tag) (nm : Name) (s : Option Tag) (arg : Option X)
    (o : Orders) (hcpp : s.getD own = .cpp) (r : Scheme × (T → T × T) × Used) :
    compile L z n own (.function nm s arg o) = some r ↔
      nativeDocumented L nm arg = some r.2.1 ∧ r.1 = (if nm.unary then .unary else .native) ∧
      ((o = .none ∧ r.2.2 = .rmw .seqCst) ∨ (nm.unary = false ∧ ∃ m, o = .one m ∧ r.2.2 = .rmw m)) := by
  have hp : pickTag own s = s.getD own := by cases s <;> rfl
  rw [compile, hp, hcpp]
  obtain ⟨sch, f, u⟩ := r
  simp only [applyCall]
  cases nm <;> cases arg <;> cases o <;>
    simp [nativeApply, Name.functor, Functor.body, Functor.cpp, nativeDocumented, Name.unary, Option.map_eq_some_iff] <;>
    (constructor
     · rintro ⟨a, ha, h1, h2, h3⟩
       subst h1 h2 h3
       exact ⟨⟨a, ha, by funext v; rfl⟩, rfl, rfl⟩
     · rintro ⟨⟨a, ha, h2⟩, h1, h3⟩
       subst h1 h2 h3
       exact ⟨a, ha, rfl, rfl, rfl⟩)

/-- `std::atomic<T>` computes what the operators of `T` compute -/
def Lang.Agree (L : Lang T X) : Prop :=
  (∀ g h, L.fetch .add = some g → L.assign .plus = some h → g = h) ∧
  (∀ g h, L.fetch .sub = some g → L.assign .minus = some h → g = h) ∧
  (∀ g h, L.fetch .band = some g → L.assign .band = some h → g = h) ∧
  (∀ g h, L.fetch .bor = some g → L.assign .bor = some h → g = h) ∧
  (∀ g h, L.fetch .bxor = some g → L.assign .bxor = some h → g = h) ∧
  (∀ g h, L.stdInc = some g → L.inc = some h → g = h) ∧
  (∀ g h, L.stdDec = some g → L.dec = some h → g = h)

theorem native_documented (L : Lang T X) (ha : L.Agree) (nm : Name) (arg : Option X) {f g : T → T × T}
    (hf : nativeDocumented L nm arg = some f) (hg : documented L nm arg = some g) : f = g := by
  obtain ⟨h1, h2, h3, h4, h5, h6, h7⟩ := ha
  cases nm <;> cases arg <;> simp only [nativeDocumented, documented, Option.map_eq_some_iff, reduceCtorEq] at hf hg <;>
    (obtain ⟨a, ha, rfl⟩ := hf
     obtain ⟨b, hb, rfl⟩ := hg
     first
       | rw [h1 a b ha hb]
       | rw [h2 a b ha hb]
       | rw [h3 a b ha hb]
       | rw [h4 a b ha hb]
       | rw [h5 a b ha hb]
       | rw [h6 a b ha hb]
       | rw [h7 a b ha hb])

/-- C92: changing the scheme never changes what an update computes, only how it is protected, if
the type's operators and `std::atomic`'s members compute the same.  (They do not for mixed
types, see C48.) -/
theorem C92_scheme_independent (L : Lang T X) (ha : L.Agree) (z : Sizes) (hz : z.Ordered) (n : Nat) (own own' : Tag)
    (nm : Name) (s s' : Option Tag) (arg : Option X) (o o' : Orders) {r r' : Scheme × (T → T × T) × Used}
    (h : compile L z n own (.function nm s arg o) = some r)
    (h' : compile L z n own' (.function nm s' arg o') = some r') : r.2.1 = r'.2.1 := by
  by_cases hc : s.getD own = .cpp <;> by_cases hc' : s'.getD own' = .cpp
  · have a := ((C92_cpp L z n own nm s arg o hc r).mp h).1
    have b := ((C92_cpp L z n own' nm s' arg o' hc' r').mp h').1
    exact Option.some.inj (a.symm.trans b)
  · have a := ((C92_cpp L z n own nm s arg o hc r).mp h).1
    have b := ((C92_meaning L z hz n own' nm s' arg o' hc' r').mp h').2.2.1
    exact native_documented L ha nm arg a b
  · have a := ((C92_meaning L z hz n own nm s arg o hc r).mp h).2.2.1
    have b := ((C92_cpp L z n own' nm s' arg o' hc' r').mp h').1
    exact (native_documented L ha nm arg b a).symm
  · have a := ((C92_meaning L z hz n own nm s arg o hc r).mp h).2.2.1
    have b := ((C92_meaning L z hz n own' nm s' arg o' hc' r').mp h').2.2.1
    exact Option.some.inj (a.symm.trans b)

/-! ## memory orders -/

/-- C92: whatever one order is written, or none, the compare-exchange is given valid orders; with
two orders it is so exactly if the second is not a releasing one -/
theorem C92_orders (L : Lang T X) (z : Sizes) (n : Nat) (own : Tag) (nm : Name) (s : Option Tag) (arg : Option X)
    (o : Orders) {r : Scheme × (T → T × T) × Used} (h : compile L z n own (.function nm s arg o) = some r) :
    r.2.2.defined = true ↔ ∀ a b, o = .two a b → b ≠ .release ∧ b ≠ .acqRel := by
  have key : ∀ u, (u = .no ∨ (∃ m, u = .rmw m)) ∧ (∀ a b, o ≠ .two a b) ∨ u = casUsed o →
      (u.defined = true ↔ ∀ a b, o = .two a b → b ≠ .release ∧ b ≠ .acqRel) := by
    rintro u (⟨rfl | ⟨m, rfl⟩, ho⟩ | rfl)
    · simp only [Used.defined, true_iff]
      exact fun a b h => absurd h (ho a b)
    · simp only [Used.defined, true_iff]
      exact fun a b h => absurd h (ho a b)
    · cases o with
      | none => simp [casUsed, Used.defined, failureOrder]
      | one m => cases m <;> simp [casUsed, Used.defined, failureOrder]
      | two a b => cases b <;> simp [casUsed, Used.defined]
  apply key
  have hp : pickTag own s = s.getD own := by cases s <;> rfl
  by_cases hc : s.getD own = .cpp
  · left
    rcases ((C92_cpp L z n own nm s arg o hc r).mp h).2.2 with ⟨h1, h2⟩ | ⟨_, m, h1, h2⟩
    · exact ⟨.inr ⟨_, h2⟩, by simp [h1]⟩
    · exact ⟨.inr ⟨_, h2⟩, by simp [h1]⟩
  · rw [compile, hp] at h
    generalize s.getD own = tag at *
    cases tag
    · exact absurd rfl hc
    all_goals
      simp only [applyCall] at h
      try split at h
      all_goals try simp only [Option.map_eq_some_iff, reduceCtorEq] at h
      all_goals try obtain ⟨f, _, rfl⟩ := h
      all_goals first
        | exact .inr rfl
        | exact .inl ⟨.inl rfl, by simp [‹o = Orders.none›]⟩

end

/-! ## a concrete type: 64-bit integers -/

/-- `long long` updated with `long long` (arithmetic modulo 2^64) -/
def longLang : Lang (BitVec 64) (BitVec 64) where
  assign
    | .plus => some (· + ·)
    | .minus => some (· - ·)
    | .times => some (· * ·)
    | .div => some BitVec.sdiv
    | .mod => some BitVec.srem
    | .shl => some (fun a b => a <<< b.toNat)
    | .shr => some (fun a b => a.sshiftRight b.toNat)
    | .band => some (· &&& ·)
    | .bor => some (· ||| ·)
    | .bxor => some (· ^^^ ·)
  inc := some (· + 1)
  dec := some (· - 1)
  ltXT := some BitVec.slt
  ltTX := some BitVec.slt
  conv := some id
  fetch
    | .add => some (· + ·)
    | .sub => some (· - ·)
    | .band => some (· &&& ·)
    | .bor => some (· ||| ·)
    | .bxor => some (· ^^^ ·)
  stdInc := some (· + 1)
  stdDec := some (· - 1)

theorem longLang_agree : longLang.Agree := by
  refine ⟨?_, ?_, ?_, ?_, ?_, ?_, ?_⟩ <;> intro g h hg hh <;> simp only [longLang, Option.some.injEq] at hg hh <;>
    rw [← hg, ← hh]

/-- `x.max<weak>(7, relaxed, acquire)` -/
example : ∃ f, compile longLang lp64 8 .strong (.member .max (some .weak) (some 7) (.two .relaxed .acquire)) =
      some (.weak, f, .cas2 .relaxed .acquire) ∧ f 3 = (7, 7) ∧ f 9 = (9, 9) :=
  ⟨_, rfl, by decide, by decide⟩

example : documented longLang .postinc none = some fun v => (v + 1, v) := rfl

/-- the hypotheses of the exact conditions hold of real calls -/
example : ∃ r, compile longLang lp64 8 .weakPun (.function .div none (some 2) (.one .acqRel)) = some r ∧
    r.1 = .weak ∧ (r.2.1 10).1 = 5 := by
  obtain ⟨r, hr⟩ : ∃ r, compile longLang lp64 8 .weakPun (.function .div none (some 2) (.one .acqRel)) = some r := ⟨_, rfl⟩
  have := (C92_meaning longLang lp64 (by simp [Sizes.Ordered, lp64]) 8 .weakPun .div none (some 2) (.one .acqRel)
    (by decide) r).mp hr
  refine ⟨r, hr, this.2.1, ?_⟩
  have h2 := this.2.2.1
  simp only [documented, longLang, Option.map_some, Option.some.injEq] at h2
  rw [← h2]
  decide

example : compile longLang lp64 8 .cpp (.function .sub none (some 2) (.one .release)) =
    some (.native, fun v => (v - 2, v - 2), .rmw .release) :=
  (C92_cpp longLang lp64 8 .cpp .sub none (some 2) (.one .release) rfl _).mpr
    ⟨rfl, rfl, .inr ⟨rfl, _, rfl, rfl⟩⟩

/-- adding under `cpp` and under `strong` computes the same -/
example : ∃ r r', compile longLang lp64 8 .cpp (.function .add none (some 2) .none) = some r ∧
    compile longLang lp64 8 .cpp (.function .add (some .strong) (some 2) (.one .relaxed)) = some r' ∧
    r.1 ≠ r'.1 ∧ r.2.1 = r'.2.1 :=
  ⟨_, _, rfl, rfl, by decide, C92_scheme_independent longLang longLang_agree lp64 (by simp [Sizes.Ordered, lp64]) 8 .cpp .cpp
    .add none (some .strong) (some 2) .none (.one .relaxed) rfl rfl⟩

/-- C92 fails for some calls that compile: a releasing order for the failed exchange is undefined -/
theorem C92_failure_order_fails : ∃ r, compile longLang lp64 8 .strong
      (.member .add none (some 1) (.two .seqCst .release)) = some r ∧ r.2.2.defined = false :=
  ⟨_, rfl, by decide⟩

/-- C92 fails: although an increment is an addition of one, under `cpp` it takes no memory order -/
theorem C92_increment_order_fails (m : MemOrder) :
    (compile longLang lp64 8 .cpp (.function .add none (some 1) (.one m))).isSome = true ∧
    (compile longLang lp64 8 .cpp (.function .inc none none (.one m))) = none := ⟨rfl, rfl⟩

/-! ## mixed call forms at run time -/

section
variable {ι : Type} [DecidableEq ι]

/-- what the calls add, by the documentation -/
def contribution : Call (BitVec 64) → Option (BitVec 64)
  | .operator (.assign .plus) (some k) | .member .add _ (some k) _ | .function .add _ (some k) _ => some k
  | .operator (.assign .minus) (some k) | .member .sub _ (some k) _ | .function .sub _ (some k) _ => some (-k)
  | .operator .preInc none | .operator .postInc none => some 1
  | .member .inc _ none _ | .member .preinc _ none _ | .member .postinc _ none _ => some 1
  | .function .inc _ none _ | .function .preinc _ none _ | .function .postinc _ none _ => some 1
  | .operator .preDec none | .operator .postDec none => some (-1)
  | .member .dec _ none _ | .member .predec _ none _ | .member .postdec _ none _ => some (-1)
  | .function .dec _ none _ | .function .predec _ none _ | .function .postdec _ none _ => some (-1)
  | _ => none

theorem documented_add (nm : Name) (arg : Option (BitVec 64)) (d : BitVec 64) (f : BitVec 64 → BitVec 64 × BitVec 64)
    (hf : documented longLang nm arg = some f) (s : Option Tag) (o : Orders)
    (hd : contribution (.function nm s arg o) = some d) (v : BitVec 64) : (f v).1 = v + d := by
  cases nm <;> cases arg <;> simp only [documented, longLang, Option.map_some, Option.some.injEq, reduceCtorEq,
    contribution] at hf hd <;> subst hf hd <;> simp [BitVec.sub_eq_add_neg]

theorem compile_add (z : Sizes) (n : Nat) (own : Tag) (c : Call (BitVec 64)) {r} (h : compile longLang z n own c = some r)
    {d : BitVec 64} (hd : contribution c = some d) (v : BitVec 64) : (r.2.1 v).1 = v + d := by
  have key : ∀ nm s arg o, compile longLang z n own (.function nm s arg o) = some r →
      ∀ s' o', contribution (.function nm s' arg o') = some d → (r.2.1 v).1 = v + d := by
    intro nm s arg o h s' o' hd
    by_cases hc : s.getD own = .cpp
    · have a := ((C92_cpp longLang z n own nm s arg o hc r).mp h).1
      obtain ⟨g, hg⟩ : ∃ g, documented longLang nm arg = some g := by
        cases nm <;> cases arg <;> simp [nativeDocumented] at a <;> exact ⟨_, rfl⟩
      rw [native_documented longLang longLang_agree nm arg a hg]
      exact documented_add nm arg d g hg s' o' hd v
    · have hp : pickTag own s = s.getD own := by cases s <;> rfl
      rw [compile, hp] at h
      obtain ⟨g, hg, e⟩ : ∃ g, documented longLang nm arg = some g ∧ r.2.1 = g := by
        rw [← plain_eq]
        generalize s.getD own = tag at *
        cases tag
        · exact absurd rfl hc
        all_goals
          simp only [applyCall] at h
          try split at h
          all_goals try simp only [Option.map_eq_some_iff, reduceCtorEq] at h
          all_goals try (obtain ⟨f, hf, rfl⟩ := h; exact ⟨f, hf, rfl⟩)
      rw [e]
      exact documented_add nm arg d g hg s' o' hd v
  cases c with
  | function nm s arg o => exact key nm s arg o h s o hd
  | member nm s arg o =>
    rw [(C92_forms longLang z n own s arg o).1 nm] at h
    refine key nm s arg o h s o ?_
    rw [← hd]
    cases nm <;> cases arg <;> rfl
  | operator t arg =>
    refine key t.name none arg .none h none .none ?_
    rw [← hd]
    cases t with
    | assign b => cases b <;> cases arg <;> rfl
    | _ => cases arg <;> rfl

/-- C92, at run time: any number of threads each perform additions, subtractions, increments and
decrements of one variable, in any of the forms, under any mix of the `cpp`, strong, weak and
punned schemes and with any memory orders.  When all have finished, the variable holds its
initial value plus everything that was added minus everything that was subtracted. -/
theorem C92_counter [Fintype ι] {sc : Bool} (z : Sizes) (n : Nat) (own : Tag) (a0 : BitVec 64)
    (calls : ι → List (Call (BitVec 64))) (ops : ι → List (Op Unit (BitVec 64)))
    (hc : ∀ i, List.Forall₂ (fun c op => ∃ u, compile longLang z n own c = some (op.scheme, op.f, u)) (calls i) (ops i))
    (hs : ∀ i, ∀ op ∈ ops i, op.scheme.atomic = true) (d : Call (BitVec 64) → BitVec 64)
    (hd : ∀ i, ∀ c ∈ calls i, contribution c = some (d c))
    {tr : List (Event ι Unit (BitVec 64))} {s : State ι Unit (BitVec 64)}
    (h : Exec sc (init (fun _ => a0) ops) tr s) (hf : Finished s) :
    s.cur () = a0 + ∑ i, ((calls i).map d).sum := by
  obtain ⟨h1, _, h3⟩ := C48_mixed_schemes_partial hs h
  have h3 := h3 hf
  have hop : ∀ i, ∀ op ∈ ops i, ∃ a, ∀ v, (op.f v).1 = v + a := by
    intro i op ho
    obtain ⟨k, hk, rfl⟩ := List.getElem_of_mem ho
    have hl := (hc i).length_eq
    obtain ⟨u, hu⟩ := (List.forall₂_iff_get.mp (hc i)).2 k (by omega) hk
    exact ⟨_, fun v => compile_add z n own _ hu (hd i _ (List.get_mem _ _)) v⟩
  have key : ∀ (l : List (ι × Op Unit (BitVec 64) × BitVec 64)) (m m' : Unit → BitVec 64),
      (∀ e ∈ l, ∃ a, ∀ v, (e.2.1.f v).1 = v + a) → Serial m l m' →
      m' () = m () + (l.map fun e => (e.2.1.f 0).1).sum := by
    intro l
    induction l with
    | nil => intro m m' _ hs; simp only [Serial] at hs; simp [hs]
    | cons e l ih =>
      intro m m' he hs
      obtain ⟨a, ha⟩ := he e (by simp)
      have := ih _ m' (fun e' h' => he e' (by simp [h'])) hs.2
      rw [this]
      simp [ha, add_assoc]
  have hl : ∀ e ∈ commits tr, ∃ a, ∀ v, (e.2.1.f v).1 = v + a := by
    intro e he
    have : e.2.1 ∈ opsOf e.1 (commits tr) := by
      rw [opsOf, List.mem_map]
      exact ⟨e, by simp [he], rfl⟩
    rw [h3] at this
    exact hop _ _ this
  rw [key _ _ _ hl h1, sum_by_thread (commits tr) (fun op => (op.f 0).1)]
  congr 1
  apply Finset.sum_congr rfl
  intro i _
  rw [h3 i]
  congr 1
  have hci := hc i
  have hdi := hd i
  generalize calls i = cs at hci hdi
  generalize ops i = os at hci
  induction hci with
  | nil => rfl
  | cons hx _ ih =>
    obtain ⟨u, hu⟩ := hx
    rw [List.map_cons, List.map_cons, ih (fun c hc => hdi c (List.mem_cons_of_mem _ hc)),
      compile_add z n own _ hu (hdi _ (by simp)) 0]
    simp

end

/-- one thread running `x += 5` and `x.postdec<weak>()` on a strong variable -/
example : ∃ tr s, Exec true (init (fun _ : Unit => (10 : BitVec 64))
      fun _ : Unit => [⟨.strong, (), binary (· + 5)⟩, ⟨.weak, (), postOp (· - 1)⟩]) tr s ∧ s.cur () = 14 := by
  have h : Exec true (init (fun _ : Unit => (10 : BitVec 64))
      fun _ : Unit => [⟨.strong, (), binary (· + 5)⟩, ⟨.weak, (), postOp (· - 1)⟩]) _ _ :=
    .snoc () (.snoc () (.snoc () (.snoc () .nil
      (.load ⟨.strong, (), binary (· + 5)⟩ [⟨.weak, (), postOp (· - 1)⟩] 10 rfl (.inl rfl) (.inl rfl)))
      (.casOk ⟨.strong, (), binary (· + 5)⟩ [⟨.weak, (), postOp (· - 1)⟩] 10 rfl rfl))
      (.load ⟨.weak, (), postOp (· - 1)⟩ [] 15 rfl (.inr rfl) (.inl rfl)))
      (.casOk ⟨.weak, (), postOp (· - 1)⟩ [] 15 rfl rfl)
  refine ⟨_, _, h, ?_⟩
  have := C92_counter lp64 8 .strong 10
    (fun _ : Unit => [.operator (.assign .plus) (some 5), .member .postdec (some .weak) none .none]) _
    (fun _ => .cons ⟨_, rfl⟩ (.cons ⟨_, rfl⟩ .nil)) (by simp [Scheme.atomic])
    (fun c => (contribution c).getD 0) (by simp [contribution]) h (fun _ => rfl)
  rw [this]
  simp [contribution]

end Verif.Atomics
