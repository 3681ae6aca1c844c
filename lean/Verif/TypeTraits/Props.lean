import Verif.TypeTraits.Model

/-!
# C95: what the type predicates tell
-/

namespace Verif.TypeTraits

/-! ## all of one type, all integral -/

theorem and_iff (l : List Bool) : and_ l = true ↔ ∀ b ∈ l, b = true := by
  induction l with
  | nil => simp [and_]
  | cons c cs ih => cases c <;> simp [and_, ih]

/-- **C95** `are_type_t` is true exactly if every type decays to what the target decays to -/
theorem C95_are_type_iff (target : Ty) (ts : List Ty) :
    areType target ts = true ↔ ∀ t ∈ ts, t.decay = target.decay := by
  rw [areType, and_iff]
  simp

/-- types as a value: references, const and volatile do not count -/
def SameValue (a b : Ty) : Prop := a.removeRef.removeCv = b.removeRef.removeCv

/-- neither array nor function -/
def Obj.isValue : Obj → Prop
  | .arr _ _ | .fn _ => False
  | _ => True

/-- **C95** For types other than arrays and functions (behind any reference) `are_type_t` ignores exactly references, const
and volatile -/
theorem C95_are_type_values (target : Ty) (ts : List Ty) (h : target.removeRef.isValue)
    (hs : ∀ t ∈ ts, t.removeRef.isValue) : areType target ts = true ↔ ∀ t ∈ ts, SameValue t target := by
  rw [C95_are_type_iff]
  have hd : ∀ t : Ty, t.removeRef.isValue → t.decay = t.removeRef.removeCv := by
    intro t ht
    unfold Ty.decay
    generalize t.removeRef = o at ht
    cases o <;> first | rfl | exact absurd ht (by simp [Obj.isValue])
  exact forall₂_congr fun t ht => by rw [hd t (hs t ht), hd target h, SameValue]

/-- **C95** Arrays of different length and pointers count as one type -/
theorem C95_are_type_arrays_fails (n m : Option Nat) (t : Obj) :
    areType (.plain (.ptr CV.none t)) [.plain (.arr n t), .lref (.arr m t)] = true ∧
    Obj.arr (some 3) t ≠ .arr (some 4) t := by
  constructor
  · rw [C95_are_type_iff]
    intro u hu
    simp only [List.mem_cons, List.not_mem_nil, or_false] at hu
    rcases hu with rfl | rfl <;> rfl
  · intro h; simp at h

example : areType (.plain (.base CV.none (.integral 1)))
    [.lref (.base ⟨true, false⟩ (.integral 1)), .rref (.base CV.none (.integral 1))] = true ∧
  areType (.plain (.base CV.none (.integral 1))) [.lref (.base CV.none (.integral 2))] = false := by decide

example : areType (.plain (.ptr CV.none (.base CV.none (.integral 1))))
    [.lref (.ptr ⟨true, true⟩ (.base CV.none (.integral 1)))] = true :=
  (C95_are_type_values (.plain (.ptr CV.none (.base CV.none (.integral 1))))
    [.lref (.ptr ⟨true, true⟩ (.base CV.none (.integral 1)))] (by simp [Ty.removeRef, Obj.isValue]) (by simp [Ty.removeRef, Obj.isValue])).mpr (by simp [SameValue, Ty.removeRef, Obj.removeCv])

/-- **C95** `are_integral` is true exactly if every type is an integral type, const or volatile or not -/
theorem C95_are_integral_iff (ts : List Ty) :
    areIntegral ts = true ↔ ∀ t ∈ ts, ∃ q k, t = .plain (.base q (.integral k)) := by
  have h1 : ∀ t, isIntegral t = true ↔ ∃ q k, t = .plain (.base q (.integral k)) := by
    intro t
    constructor
    · intro h
      match t, h with
      | .plain (.base q (.integral k)), _ => exact ⟨q, k, rfl⟩
    · rintro ⟨q, k, rfl⟩; rfl
  induction ts with
  | nil => simp [areIntegral]
  | cons t ts ih => simp [areIntegral, ih, h1]

/-- **C95** A reference to an integer is not integral for `are_integral`, though it is of that type for `are_type_t`: a
pack of forwarded variables must be decayed first -/
theorem C95_are_integral_reference_fails (q : CV) (k : Nat) :
    areIntegral [.lref (.base q (.integral k))] = false ∧
    areType (.plain (.base CV.none (.integral k))) [.lref (.base q (.integral k))] = true := by
  constructor
  · rfl
  · rw [C95_are_type_iff]
    intro t ht
    simp only [List.mem_cons, List.not_mem_nil, or_false] at ht
    subst ht
    rfl

example : areIntegral [.plain (.base CV.none (.integral 0)), .plain (.base ⟨true, false⟩ (.integral 3))] = true ∧
    areIntegral [.plain (.base CV.none (.integral 0)), .plain (.base CV.none (.floating 0))] = false := by decide

/-! ## callable -/

/-- the class or one of its bases, at any depth, declares the name -/
inductive Declares (n : Name) : Cls → Prop
  | here {i f d bs} (a : Access) : (n, a) ∈ d → Declares n (.mk i f d bs)
  | base {i f d bs} (a : Access) (c : Cls) : (a, c) ∈ bs → Declares n c → Declares n (.mk i f d bs)

theorem through_none (a : Access) (f : Found) : f.through a = .none ↔ f = .none := by
  cases f <;> simp [Found.through]

theorem merge_none (f g : Found) : f.merge g = .none ↔ f = .none ∧ g = .none := by
  cases f <;> cases g <;> simp [Found.merge]

mutual
theorem lookup_none (n : Name) : ∀ c : Cls, lookup n c = .none ↔ ¬ Declares n c
  | .mk i f d bs => by
    rw [lookup]
    by_cases h : d.any (fun x => decide (x.1 = n)) = true
    · rw [if_pos h]
      simp only [reduceCtorEq, false_iff, Classical.not_not]
      obtain ⟨⟨m, a⟩, hx, hm⟩ := List.any_eq_true.mp h
      simp only [decide_eq_true_eq] at hm
      subst hm
      exact .here a hx
    · rw [if_neg h, lookupBases_none n bs]
      constructor
      · intro hb hd
        cases hd with
        | here a ha => exact h (List.any_eq_true.mpr ⟨_, ha, by simp⟩)
        | base a c hc hd => exact hb a c hc hd
      · intro hd a c hc hdc
        exact hd (.base a c hc hdc)
theorem lookupBases_none (n : Name) : ∀ bs : List (Access × Cls),
    lookupBases n bs = .none ↔ ∀ a c, (a, c) ∈ bs → ¬ Declares n c
  | [] => by simp [lookupBases]
  | (a, c) :: bs => by
    rw [lookupBases, merge_none, through_none, lookup_none n c, lookupBases_none n bs]
    constructor
    · rintro ⟨h1, h2⟩ a' c' h
      rcases List.mem_cons.mp h with e | h
      · cases e; exact h1
      · exact h2 a' c' h
    · intro h
      exact ⟨h a c List.mem_cons_self, fun a' c' hm => h a' c' (List.mem_cons_of_mem _ hm)⟩
end

theorem lookup_fallback (id : Nat) : lookup .call (fallback id) = .one id true := by
  simp [fallback, lookup]

theorem lookup_derived (t : Cls) (id : Nat) :
    lookup .call (derived t id) = (lookup .call t).merge (.one id true) := by
  rw [derived, lookup]
  simp only [List.any_nil, Bool.false_eq_true, if_false, lookupBases]
  rw [lookup_fallback]
  cases lookup .call t <;> simp [Found.through, Found.merge]

/-- **C95** For a class that may be derived from, `is_callable` is true exactly if the class or one of its bases, at any
depth, declares an operator (); a final class does not compile -/
theorem C95_callable_iff (Γ : Env) (fresh : Nat) (q : CV) (k : Nat) :
    ((Γ k).final = true → isCallable Γ fresh (.plain (.base q (.cls k))) = .hard) ∧
    ((Γ k).final = false → ∃ b, isCallable Γ fresh (.plain (.base q (.cls k))) = .val b ∧
      (b = true ↔ Declares .call (Γ k))) := by
  constructor
  · intro h
    simp [isCallable, callableImpl, h]
  · intro h
    refine ⟨_, by rw [isCallable, callableImpl, if_neg (by simp [h])], ?_⟩
    rw [lookup_derived]
    by_cases hd : lookup .call (Γ k) = .none
    · rw [hd]
      simp [Found.merge, (lookup_none _ _).mp hd]
    · have hm : (lookup .call (Γ k)).merge (.one fresh true) = .ambiguous := by
        cases h' : lookup .call (Γ k) with
        | none => exact absurd h' hd
        | one i a => rfl
        | ambiguous => rfl
      rw [hm]
      have := mt (lookup_none .call (Γ k)).mpr hd
      simp only [Classical.not_not] at this
      simp [this]

/-- an object of the type can be called from outside with some arguments (conversions to function pointers aside) -/
def CanCall (Γ : Env) : Obj → Prop
  | .base _ (.cls k) => hasMember (Γ k) .call = true
  | .ptr _ (.fn _) => True
  | .fn _ => True
  | .wrap _ t => CanCall Γ t
  | _ => False

/-- **C95** `is_callable` tells whether objects of a class can be called, provided what lookup finds is neither private
nor ambiguous and the class is not final -/
theorem C95_callable_partial (Γ : Env) (fresh : Nat) (q : CV) (k : Nat) (hf : (Γ k).final = false)
    (ha : lookup .call (Γ k) ≠ .ambiguous) (hp : ∀ i, lookup .call (Γ k) ≠ .one i false) :
    ∃ b, isCallable Γ fresh (.plain (.base q (.cls k))) = .val b ∧ (b = true ↔ CanCall Γ (.base q (.cls k))) := by
  obtain ⟨b, hb, hi⟩ := (C95_callable_iff Γ fresh q k).2 hf
  refine ⟨b, hb, hi.trans ?_⟩
  rw [CanCall, hasMember]
  have hn := lookup_none .call (Γ k)
  cases h : lookup .call (Γ k) with
  | none => simp [hn.mp h]
  | ambiguous => exact absurd h ha
  | one i a =>
    cases a with
    | false => exact absurd h (hp i)
    | true =>
      have : Declares .call (Γ k) := by
        by_cases hd : Declares .call (Γ k)
        · exact hd
        · rw [hn.mpr hd] at h; cases h
      simp [this]

/-- **C95** `is_callable` is also true for a class with a private operator () and for one inheriting two, neither of which
can be called; it is false for function pointers, functions and references to callable objects -/
theorem C95_callable_fails :
    (∃ Γ : Env, ∀ fresh, isCallable Γ fresh (.plain (.base CV.none (.cls 0))) = .val true ∧
      ¬ CanCall Γ (.base CV.none (.cls 0))) ∧
    (∃ Γ : Env, ∀ fresh, (∀ x ∈ (Γ 0).bases, hasMember x.2 .call = true) ∧
      isCallable Γ fresh (.plain (.base CV.none (.cls 0))) = .val true ∧ ¬ CanCall Γ (.base CV.none (.cls 0))) ∧
    (∀ (Γ : Env) (fresh k : Nat) (q : CV), isCallable Γ fresh (.plain (.ptr q (.fn k))) = .val false ∧
      CanCall Γ (.ptr q (.fn k))) ∧
    (∀ (Γ : Env) (fresh k : Nat) (q : CV), isCallable Γ fresh (.lref (.base q (.cls k))) = .val false) := by
  refine ⟨⟨fun _ => .mk 0 false [(.call, .priv)] [], fun fresh => ⟨?_, ?_⟩⟩,
    ⟨fun _ => .mk 0 false [] [(.pub, .mk 1 false [(.call, .pub)] []), (.pub, .mk 2 false [(.call, .pub)] [])],
      fun fresh => ⟨?_, ?_, ?_⟩⟩, fun _ _ _ _ => ⟨rfl, trivial⟩, fun _ _ _ _ => rfl⟩
  · obtain ⟨b, hb, hi⟩ := (C95_callable_iff (fun _ => .mk 0 false [(.call, .priv)] []) fresh CV.none 0).2 rfl
    rw [hb, hi.mpr (.here .priv (by simp))]
  · simp [CanCall, hasMember, lookup]
  · intro x hx
    simp only [Cls.bases, List.mem_cons, List.not_mem_nil, or_false] at hx
    rcases hx with rfl | rfl <;> simp [hasMember, lookup]
  · obtain ⟨b, hb, hi⟩ := (C95_callable_iff (fun _ => .mk 0 false [] [(.pub, .mk 1 false [(.call, .pub)] []),
      (.pub, .mk 2 false [(.call, .pub)] [])]) fresh CV.none 0).2 rfl
    rw [hb, hi.mpr (.base .pub (.mk 1 false [(.call, .pub)] []) (by simp) (.here .pub (by simp)))]
  · simp [CanCall, hasMember, lookup, lookupBases, Found.through, Found.merge]

/-- a class inheriting its call operator from the base of its base -/
example (fresh : Nat) : isCallable (fun _ => .mk 0 false [(.size, .pub)]
    [(.pub, .mk 1 false [] [(.pub, .mk 2 false [(.call, .pub)] [])])]) fresh (.plain (.base CV.none (.cls 0))) = .val true := by
  obtain ⟨b, hb, hi⟩ := C95_callable_partial (fun _ => .mk 0 false [(.size, .pub)]
    [(.pub, .mk 1 false [] [(.pub, .mk 2 false [(.call, .pub)] [])])]) fresh CV.none 0 rfl
    (by simp [lookup, lookupBases, Found.through, Found.merge]) (by simp [lookup, lookupBases, Found.through, Found.merge])
  rw [hb, hi.mpr (by simp [CanCall, hasMember, lookup, lookupBases, Found.through, Found.merge])]

example : isCallable (fun _ => .mk 0 true [(.call, .pub)] []) 7 (.plain (.base CV.none (.cls 0))) = .hard :=
  (C95_callable_iff _ 7 CV.none 0).1 rfl

/-! ## containers -/

/-- the names the C++ standard requires of every container, of those the predicates ask for -/
def standardNames : List Name :=
  [.value_type, .size_type, .iterator, .const_iterator, .size, .begin, .end_, .cbegin, .cend]

/-- **C95** `is_container` is true exactly for classes with the members required of a container and, beyond that, an
allocator type and `data`; `is_minimal_container` asks for `size` and `data` only, also through a reference -/
theorem C95_container_iff (Γ : Env) (q : CV) (k : Nat) :
    (isContainer Γ (.plain (.base q (.cls k))) = true ↔
      (∀ n ∈ standardNames, hasMember (Γ k) n = true) ∧ hasMember (Γ k) .allocator_type = true ∧
        hasMember (Γ k) .data = true) ∧
    (∀ t : Ty, t.removeRef = .base q (.cls k) →
      (isMinimalContainer Γ t = true ↔ hasMember (Γ k) .size = true ∧ hasMember (Γ k) .data = true)) ∧
    ((∃ t : Ty, isContainer Γ t = true ∧ t = .plain (.base q (.cls k))) →
      isMinimalContainer Γ (.plain (.base q (.cls k))) = true) := by
  have h1 : isContainer Γ (.plain (.base q (.cls k))) = true ↔
      (∀ n ∈ standardNames, hasMember (Γ k) n = true) ∧ hasMember (Γ k) .allocator_type = true ∧
        hasMember (Γ k) .data = true := by
    simp only [isContainer, standardNames, List.all_cons, List.all_nil, Bool.and_true, Bool.and_eq_true,
      List.forall_mem_cons, List.not_mem_nil, false_implies, implies_true, and_true]
    constructor
    · rintro ⟨a, b, c, d, e, f, g, h, i, j, l⟩; exact ⟨⟨a, b, d, e, f, g, h, i, j⟩, c, l⟩
    · rintro ⟨⟨a, b, d, e, f, g, h, i, j⟩, c, l⟩; exact ⟨a, b, c, d, e, f, g, h, i, j, l⟩
  refine ⟨h1, ?_, ?_⟩
  · intro t ht
    have : isMinimalContainer Γ t = [Name.size, .data].all (hasMember (Γ k)) := by
      cases t <;> simp only [Ty.removeRef] at ht <;> subst ht <;> rfl
    rw [this]
    simp
  · rintro ⟨t, h, rfl⟩
    obtain ⟨hs, -, hd⟩ := h1.mp h
    have := hs .size (by simp [standardNames])
    simp [isMinimalContainer, this, hd]

/-- **C95** Containers of the standard are not containers for `is_container`: `std::list`, `std::map` and `std::deque` have
no `data`, `std::array` has no allocator type; neither is a reference to a container -/
theorem C95_container_fails : ∃ list array : Cls,
    (∀ n ∈ standardNames, hasMember list n = true) ∧ hasMember list .allocator_type = true ∧
    (∀ n ∈ standardNames, hasMember array n = true) ∧ hasMember array .data = true ∧
    isContainer (fun _ => list) (.plain (.base CV.none (.cls 0))) = false ∧
    isContainer (fun _ => array) (.plain (.base CV.none (.cls 0))) = false ∧
    ∀ (Γ : Env) t, isContainer Γ (.lref t) = false := by
  refine ⟨.mk 0 false ((Name.allocator_type :: standardNames).map (·, Access.pub)) [],
    .mk 0 false ((Name.data :: standardNames).map (·, Access.pub)) [], ?_, ?_, ?_, ?_, ?_, ?_, fun _ _ => rfl⟩
  · intro n hn
    simp only [standardNames, List.mem_cons, List.not_mem_nil, or_false] at hn
    rcases hn with rfl | rfl | rfl | rfl | rfl | rfl | rfl | rfl | rfl <;> simp [hasMember, lookup, standardNames]
  · simp [hasMember, lookup, standardNames]
  · intro n hn
    simp only [standardNames, List.mem_cons, List.not_mem_nil, or_false] at hn
    rcases hn with rfl | rfl | rfl | rfl | rfl | rfl | rfl | rfl | rfl <;> simp [hasMember, lookup, standardNames]
  · simp [hasMember, lookup, standardNames]
  · simp [isContainer, hasMember, lookup, lookupBases, standardNames]
  · simp [isContainer, hasMember, lookup, lookupBases, standardNames]

/-- something like `std::vector` -/
example : isContainer (fun _ => .mk 0 false ((Name.allocator_type :: .data :: standardNames).map (·, Access.pub)) [])
    (.plain (.base CV.none (.cls 0))) = true := by
  simp [isContainer, hasMember, lookup, standardNames]

/-! ## iterators -/

/-- **C95** `is_iterator` is true for every unqualified pointer to an object and every class with the five iterator types,
and false for numbers, arrays, and qualified pointers -/
theorem C95_iterator (Γ : Env) :
    (∀ t, (∀ q, t ≠ .base q .void) → isIterator Γ (.plain (.ptr CV.none t)) = .val true) ∧
    (∀ q k, isIterator Γ (.plain (.base q (.cls k))) = .val true ↔
      ∀ n ∈ [Name.difference_type, .pointer, .reference, .value_type, .iterator_category], hasMember (Γ k) n = true) ∧
    (∀ q k, isIterator Γ (.plain (.base q (.integral k))) = .val false ∧
      isIterator Γ (.plain (.base q (.floating k))) = .val false) ∧
    (∀ n t, isIterator Γ (.plain (.arr n t)) = .val false) ∧
    ∀ q t, q ≠ CV.none → isIterator Γ (.plain (.ptr q t)) = .val false := by
  refine ⟨fun t ht => ?_, fun q k => ?_, fun q k => ⟨rfl, rfl⟩, fun n t => rfl, fun q t hq => ?_⟩
  · cases t with
    | base q b =>
      cases b with
      | void => exact absurd rfl (ht q)
      | _ => rfl
    | _ => rfl
  · simp [isIterator, deduced, hasTraits]
  · simp [isIterator, deduced, hasTraits, hq]

/-- **C95** `is_iterator` takes a pointer to a function for an iterator, a reference to an iterator for none, and does not
compile for `void *` and `void` -/
theorem C95_iterator_fails (Γ : Env) :
    (∀ k, isIterator Γ (.plain (.ptr CV.none (.fn k))) = .val true) ∧
    (∀ t, isIterator Γ (.lref (.ptr CV.none t)) = .val false) ∧
    (∀ q, isIterator Γ (.plain (.ptr CV.none (.base q .void))) = .hard ∧
      isIterator Γ (.plain (.base q .void)) = .hard) :=
  ⟨fun _ => rfl, fun _ => rfl, fun _ => ⟨rfl, rfl⟩⟩

example : isIterator (fun _ => .mk 0 false [] []) (.plain (.ptr CV.none (.base ⟨true, false⟩ (.integral 0)))) = .val true :=
  (C95_iterator _).1 _ (by intro q h; cases h)

/-! ## subscripts -/

/-- an array, or a pointer to something that can be stored -/
def Points (o : Obj) : Prop :=
  (∃ n e, o = .arr n e) ∨ ∃ q e, o = .ptr q e ∧ (∀ q', e ≠ .base q' .void) ∧ ∀ k, e ≠ .fn k

/-- a number to count with -/
def Counts (o : Obj) : Prop := ∃ q k, o = .base q (.integral k) ∨ o = .base q (.enumeration k)

theorem pointerToObject_iff (o : Obj) : pointerToObject o = true ↔ Points o := by
  unfold Points
  cases o with
  | arr n e => simp [pointerToObject]
  | ptr q e =>
    have h : pointerToObject (.ptr q e) = true ↔ (∀ q', e ≠ .base q' .void) ∧ ∀ k, e ≠ .fn k := by
      cases e with
      | base q' b => cases b <;> simp [pointerToObject]
      | _ => simp [pointerToObject]
    rw [h]
    constructor
    · exact fun hh => .inr ⟨q, e, rfl, hh⟩
    · rintro (⟨n, e', he⟩ | ⟨q', e', he, hh⟩)
      · cases he
      · cases he; exact hh
  | _ => simp [pointerToObject]

theorem subscriptIndex_iff (o : Obj) : subscriptIndex o = true ↔ Counts o := by
  unfold Counts
  cases o with
  | base q b => cases b <;> simp [subscriptIndex]
  | _ => simp [subscriptIndex]

/-- **C95** For types other than classes `has_subscript_operator` is true exactly if one operand is an array or a pointer to
objects and the other an integer or enumerator, in either order and behind any reference -/
theorem C95_subscript_iff (t i : Ty) : hasSubscript t i = true ↔
    (Points t.removeRef ∧ Counts i.removeRef) ∨ (Counts t.removeRef ∧ Points i.removeRef) := by
  simp [hasSubscript, pointerToObject_iff, subscriptIndex_iff]

example : hasSubscript (.lref (.arr (some 3) (.base CV.none (.floating 1)))) (.plain (.base CV.none (.integral 4))) = true :=
  (C95_subscript_iff _ _).mpr (.inl ⟨.inl ⟨_, _, rfl⟩, ⟨_, _, .inl rfl⟩⟩)

/-- **C95** So an integer has a subscript operator, taking a pointer -/
theorem C95_subscript_fails (q q' : CV) (k k' : Nat) :
    hasSubscript (.plain (.base q (.integral k))) (.plain (.ptr q' (.base q (.integral k')))) = true ∧
    hasSubscript (.plain (.base q (.integral k))) (.plain (.base q (.integral k'))) = false := ⟨rfl, rfl⟩

/-! ## decay and extents -/

/-- **C95** `special_decay` of a temporary reference wrapper is the reference; of a type that is no wrapper, the decayed
type -/
theorem C95_special_decay_partial (t : Obj) :
    specialDecay (.plain (.wrap CV.none t)) = .lref t ∧
    ∀ u : Ty, (∀ q o, u.removeRef ≠ .wrap q o) → specialDecay u = .plain u.decay := by
  refine ⟨by simp [specialDecay], fun u hu => ?_⟩
  cases u with
  | plain o =>
    cases o with
    | wrap q o => exact absurd rfl (hu q o)
    | _ => rfl
  | lref o => rfl
  | rref o => rfl

/-- **C95** A reference wrapper held in a variable (so deduced as an lvalue reference) or const stays a wrapper: the
reference is not taken out, unlike `std::make_tuple` -/
theorem C95_special_decay_fails (q : CV) (t : Obj) :
    specialDecay (.lref (.wrap q t)) = .plain (.wrap CV.none t) ∧
    specialDecay (.plain (.wrap ⟨true, false⟩ t)) = .plain (.wrap CV.none t) ∧
    (Ty.lref (.wrap q t)).decay = (Ty.plain (.wrap CV.none t)).decay := ⟨rfl, by simp [specialDecay, CV.none], rfl⟩

example : specialDecay (.lref (.arr (some 3) (.base CV.none (.integral 0)))) =
    .plain (.ptr CV.none (.base CV.none (.integral 0))) :=
  (C95_special_decay_partial (.fn 0)).2 (.lref (.arr (some 3) (.base CV.none (.integral 0))))
    (by intro q o h; cases h)

/-- **C95** `extract_extents` compiles for no type -/
theorem C95_extents_fails (t : Ty) (rank : Ty → Nat) : extractExtents t rank = .hard := by
  unfold extractExtents extentsHelper
  split
  · rename_i h; split at h <;> simp at h
  · rfl

end Verif.TypeTraits
