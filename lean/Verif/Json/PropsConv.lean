import Verif.Json.ConvLemmas

/-!
# C138: C++ values as JSON values and back; C139: `get`; C140: `get_ptr` and `get_ref`
-/

namespace Verif.Json

open Spec

variable {F : Type}

/-! ## C138 -/

/-- **C138** (what holds) A value of any type, made a JSON value, is given back by `get<T>()`, unless it has a pair or
tuple (or an entry of a map whose keys are no strings) with all components sequences of two with a string
in front, or a multimap with a key twice.  Types are nested to any depth. -/
theorem C138_round_trip_partial (c : Casts F) (lt : CVal F → CVal F → Bool) (t : CTy) (v : CVal F) (h : Has c lt t v) (hp : Plain t v) :
    get c lt t (toJson t v) = .ok v := back_elem c lt t v h hp

/-- **C138** This is so exactly for these values: any other, of a type without multimaps, is refused when it is
asked for, never given back as another value. -/
theorem C138_round_trip_iff (c : Casts F) (lt : CVal F → CVal F → Bool) (t : CTy) (v : CVal F) (hm : NoMulti t) (h : Has c lt t v) :
    (get c lt t (toJson t v) = .ok v ↔ Plain t v) ∧
    (¬ Plain t v → ∃ k, (k = "type_error.302" ∨ k = "type_error.304") ∧ get c lt t (toJson t v) = .throws k) := by
  refine ⟨⟨fun hg => ?_, back_elem c lt t v h⟩, fun hp => back_throws c lt t v hm h hp⟩
  by_cases hp : Plain t v
  · exact hp
  · obtain ⟨k, _, hk⟩ := back_throws c lt t v hm h hp
    rw [hg] at hk
    cases hk

/-- conversions for examples: floating-point numbers that are integers -/
def exCasts : Casts Int := { ofInt := id, trunc := some, round32 := id }

/-- an order of integers for examples -/
def exLt : CVal Int → CVal Int → Bool
  | .int i, .int j => decide (i < j)
  | _, _ => false

/-- `std::map<int, std::vector<std::pair<std::string, double>>>` -/
example : Has exCasts exLt (.table (.int true 32 false) (.vec (.tuple [.str, .double])))
      (.table [(.int (-3), .seq [.seq [.str [97], .flt 7], .seq [.str [98], .flt 8]]), (.int 4, .seq [])]) ∧
    Plain (.table (.int true 32 false) (.vec (.tuple [.str, .double])))
      (.table [(.int (-3), .seq [.seq [.str [97], .flt 7], .seq [.str [98], .flt (8 : Int)]]), (.int 4, .seq [])]) ∧
    NoMulti (.table (.int true 32 false) (.vec (.tuple [.str, .double]))) := by
  refine ⟨?_, ?_, ?_⟩
  · simp [Has, HasL, inType, exLt]
  · simp [Plain, PlainL, couple]
  · simp [NoMulti, NoMultiL]

/-- **C138** (what does not hold) A pair of pairs of a string and a number cannot be read back; nor can a pair of two
vectors of strings, if both have two elements, though it can if one has three. -/
theorem C138_round_trip_fails :
    get exCasts exLt (.tuple [.tuple [.str, .double], .tuple [.str, .double]])
      (toJson (.tuple [.tuple [.str, .double], .tuple [.str, .double]]) (.seq [.seq [.str [97], .flt 1], .seq [.str [98], .flt 2]])) =
      .throws "type_error.304" ∧
    get exCasts exLt (.tuple [.vec .str, .vec .str])
      (toJson (.tuple [.vec .str, .vec .str]) (.seq [.seq [.str [97], .str [98]], .seq [.str [99], .str [100]]])) = .throws "type_error.304" ∧
    get exCasts exLt (.tuple [.vec .str, .vec .str])
      (toJson (.tuple [.vec .str, .vec .str]) (.seq [.seq [.str [97], .str [98]], .seq [.str [99], .str [100], .str [101]]])) =
      .ok (.seq [.seq [.str [97], .str [98]], .seq [.str [99], .str [100], .str [101]]]) := ⟨rfl, rfl, rfl⟩

/-- can a value of the type be a string in JSON -/
def textTy : CTy → Bool
  | .str => true
  | .json => true
  | _ => false

/-- no value of the type is a sequence of two with a string in front -/
def neverCouple : CTy → Bool
  | .vec t => !textTy t
  | .flist t => !textTy t
  | .valarray t => !textTy t
  | .array n t => n != 2 || !textTy t
  | .carray n t => n != 2 || !textTy t
  | .tuple [t, _] => !textTy t
  | .json => false
  | _ => true

mutual
/-- a condition on the type alone: every tuple has a component that is never a sequence of two with a string in
front, and there are no multimaps -/
def safe : CTy → Bool
  | .vec t => safe t
  | .flist t => safe t
  | .valarray t => safe t
  | .array _ t => safe t
  | .carray _ t => safe t
  | .tuple ts => safeL ts && (ts.isEmpty || ts.any neverCouple)
  | .dict t => safe t
  | .mdict _ => false
  | .table k v => safe k && safe v && (neverCouple k || neverCouple v)
  | _ => true
/-- the components of a tuple -/
def safeL : List CTy → Bool
  | [] => true
  | t :: ts => safe t && safeL ts
end

theorem isText_ty {t : CTy} {v : CVal F} (h : isText t v = true) : textTy t = true := by
  rw [isText.eq_def] at h
  split at h
  · rfl
  · rfl
  · cases h

theorem neverCouple_ok {c : Casts F} {lt : CVal F → CVal F → Bool} (t : CTy) (v : CVal F) (h : Has c lt t v) (hn : neverCouple t = true) :
    couple t v = false := by
  cases hc : couple t v with
  | false => rfl
  | true =>
    rw [couple.eq_def] at hc
    split at hc
    · simp [neverCouple, isText_ty hc] at hn
    · simp [neverCouple, isText_ty hc] at hn
    · simp [neverCouple, isText_ty hc] at hn
    · rw [Has] at h
      simp [neverCouple, isText_ty hc] at hn
      exact absurd h.1.symm hn
    · rw [Has] at h
      simp [neverCouple, isText_ty hc] at hn
      exact absurd h.1.symm hn
    · simp [neverCouple, isText_ty hc] at hn
    · simp [neverCouple] at hn
    · cases hc

mutual
theorem safe_plain {c : Casts F} {lt : CVal F → CVal F → Bool} : ∀ (t : CTy) (v : CVal F), Has c lt t v → safe t = true → Plain t v
  | .null, v, h, _ => by cases v <;> simp [Has, Plain] at h ⊢
  | .bool, v, h, _ => by cases v <;> simp [Has, Plain] at h ⊢
  | .str, v, h, _ => by cases v <;> simp [Has, Plain] at h ⊢
  | .int _ _ _, v, h, _ => by cases v <;> simp [Has, Plain] at h ⊢
  | .float, v, h, _ => by cases v <;> simp [Has, Plain] at h ⊢
  | .double, v, h, _ => by cases v <;> simp [Has, Plain] at h ⊢
  | .enum _ _, v, h, _ => by cases v <;> simp [Has, Plain] at h ⊢
  | .json, v, h, _ => by cases v <;> simp [Has, Plain] at h ⊢
  | .mdict t, v, h, hs => by simp [safe] at hs
  | .vec t, v, h, hs => by
    cases v with
    | seq vs => rw [Has] at h; rw [safe] at hs; rw [Plain]; exact fun x hx => safe_plain t x (h x hx) hs
    | _ => simp [Has] at h
  | .flist t, v, h, hs => by
    cases v with
    | seq vs => rw [Has] at h; rw [safe] at hs; rw [Plain]; exact fun x hx => safe_plain t x (h x hx) hs
    | _ => simp [Has] at h
  | .valarray t, v, h, hs => by
    cases v with
    | seq vs => rw [Has] at h; rw [safe] at hs; rw [Plain]; exact fun x hx => safe_plain t x (h x hx) hs
    | _ => simp [Has] at h
  | .array _ t, v, h, hs => by
    cases v with
    | seq vs => rw [Has] at h; rw [safe] at hs; rw [Plain]; exact fun x hx => safe_plain t x (h.2 x hx) hs
    | _ => simp [Has] at h
  | .carray _ t, v, h, hs => by
    cases v with
    | seq vs => rw [Has] at h; rw [safe] at hs; rw [Plain]; exact fun x hx => safe_plain t x (h.2 x hx) hs
    | _ => simp [Has] at h
  | .dict t, v, h, hs => by
    cases v with
    | dict ms => rw [Has] at h; rw [safe] at hs; rw [Plain]; exact fun x hx => safe_plain t x.2 (h.2 x hx) hs
    | _ => simp [Has] at h
  | .table k u, v, h, hs => by
    cases v with
    | table es =>
      rw [Has] at h
      simp only [safe, Bool.and_eq_true, Bool.or_eq_true] at hs
      rw [Plain]
      intro x hx
      refine ⟨safe_plain k x.1 (h.2 x hx).1 hs.1.1, safe_plain u x.2 (h.2 x hx).2 hs.1.2, ?_⟩
      rcases hs.2 with h' | h'
      · exact .inl (neverCouple_ok k x.1 (h.2 x hx).1 h')
      · exact .inr (neverCouple_ok u x.2 (h.2 x hx).2 h')
    | _ => simp [Has] at h
  | .tuple ts, v, h, hs => by
    cases v with
    | seq vs =>
      rw [Has] at h
      simp only [safe, Bool.and_eq_true, Bool.or_eq_true, List.isEmpty_iff] at hs
      rw [Plain]
      refine ⟨(safe_plainL ts vs h hs.1).1, ?_⟩
      rcases hs.2 with h' | h'
      · exact .inl h'
      · exact .inr ((safe_plainL ts vs h hs.1).2 h')
    | _ => simp [Has] at h

theorem safe_plainL {c : Casts F} {lt : CVal F → CVal F → Bool} : ∀ (ts : List CTy) (vs : List (CVal F)), HasL c lt ts vs → safeL ts = true →
    PlainL ts vs ∧ (ts.any neverCouple = true → ∃ e ∈ ts.zip vs, couple e.1 e.2 = false)
  | [], vs, h, _ => by simp [PlainL]
  | t :: ts, [], h, _ => by simp [HasL] at h
  | t :: ts, v :: vs, h, hs => by
    rw [HasL] at h
    simp only [safeL, Bool.and_eq_true] at hs
    have h1 := safe_plain t v h.1 hs.1
    have h2 := safe_plainL ts vs h.2 hs.2
    rw [PlainL]
    refine ⟨⟨h1, h2.1⟩, fun ha => ?_⟩
    rw [List.any_cons, Bool.or_eq_true] at ha
    rcases ha with ha | ha
    · exact ⟨(t, v), by simp, neverCouple_ok t v h.1 ha⟩
    · obtain ⟨e, he, hc⟩ := h2.2 ha
      exact ⟨e, by simp [he], hc⟩
end

/-- **C138** (what holds) Whether this can happen can be told from the type: if each tuple in it has a component that
is never two with a string in front – a number, a map, a vector of numbers, a triple –, all its values are
given back. -/
theorem C138_safe (c : Casts F) (lt : CVal F → CVal F → Bool) (t : CTy) (hs : safe t = true) (v : CVal F) (h : Has c lt t v) :
    get c lt t (toJson t v) = .ok v := back_elem c lt t v h (safe_plain t v h hs)

example : safe (.table (.tuple [.str, .int true 64 true]) (.vec (.dict (.tuple [.str, .str, .tuple [.str, .vec .str]])))) = true ∧
    safe (.tuple [.vec .str, .str]) = true ∧ safe (.tuple [.vec .str, .vec .str]) = false := ⟨rfl, rfl, rfl⟩

/-- **C138** (what does not hold) A multimap with a key twice comes back with the first value only. -/
theorem C138_multimap_fails : Has exCasts exLt (.mdict .double) (.dict [([97], .flt 1), ([97], .flt 2)]) ∧
    get exCasts exLt (.mdict .double) (toJson (.mdict .double) (.dict [([97], .flt 1), ([97], .flt 2)])) = .ok (.dict [([97], .flt 1)]) :=
  ⟨by simp [Has], rfl⟩

/-- **C138** What a multimap becomes: an object that has under each key the first value the multimap has under it. -/
theorem C138_multimap (t : CTy) (ms : List (Bytes × CVal F)) : ∃ ns, toJson (.mdict t) (.dict ms) = .obj ns ∧ SortedM ns ∧
    ∀ k, lookup k ns = (ms.find? fun e => e.1 == k).map fun e => toJson t e.2 := by
  rw [toJson, ← List.foldl_map (f := fun e : Bytes × CVal F => (e.1, toJson t e.2)) (g := fun ns e => emplaceKey e.1 e.2 ns)]
  obtain ⟨h1, h2⟩ := emplaceAll (ms.map fun e => (e.1, toJson t e.2)) [] List.Pairwise.nil
  refine ⟨_, rfl, h1, fun k => ?_⟩
  rw [h2 k, lookup_nil, Option.none_or]
  induction ms with
  | nil => rfl
  | cons e es ih =>
    rw [List.map_cons, lookup_cons, List.find?_cons]
    by_cases hk : k = e.1
    · simp [hk]
    · obtain ⟨h1', h2'⟩ := emplaceAll (es.map fun e => (e.1, toJson t e.2)) [] List.Pairwise.nil
      rw [if_neg hk, ih h1' h2']
      simp [show (e.1 == k) = false by simpa using Ne.symm hk]

example : toJson (.mdict .double) (.dict [([97], .flt (1 : Int)), ([97], .flt 2), ([98], .flt 3)]) =
    .obj [([97], .float 1), ([98], .float 3)] := rfl

/-- **C138** (what holds) Values that are given back are given back also if the JSON value is written as a text in between
and read again, with any layout: if the type has no JSON values in it, all strings are UTF-8 and all
floating-point numbers finite. -/
theorem C138_text (fl : Floats F) (hfl : Exact fl) (c : Casts F) (lt : CVal F → CVal F → Bool) (t : CTy) (v : CVal F)
    (hn : NoJson t) (h : Has c lt t v) (hp : Plain t v) (hv : Proper fl v)
    (indent : Int) (hi : indent ≤ 1024) (ic : Nat) (hic : Ws [ic]) (ascii : Bool) (e : Handler) :
    ∃ text j, dump fl indent ic ascii e (toJson t v) = .ok text ∧ parseAll fl text = .ok j ∧ get c lt t j = .ok v := by
  have hf := fit_toJson c lt fl t v hn h hv
  obtain ⟨text, h1, _, h3⟩ := C113_read_back fl hfl indent hi ic hic ascii e (toJson t v) hf.1 hf.2.1 hf.2.2.1
  exact ⟨text, _, h1, h3, by rw [get_canon c lt fl t _ hn hf, back_elem c lt t v h hp]⟩

/-- `std::map<int, std::vector<std::pair<std::string, int>>>` -/
example (fl : Floats Int) : NoJson (.table (.int true 32 false) (.vec (.tuple [.str, .int true 32 false]))) ∧
    Proper fl (.table [(.int (-3), .seq [.seq [.str [], .int 7]])]) := by
  refine ⟨by simp [NoJson, NoJsonL], ?_⟩
  simp [Proper, ProperT, ProperL]
  exact ⟨[], by simp, rfl⟩

/-- **C138** (what does not hold) A number that is not finite is not given back from a text: it is written as
null. -/
theorem C138_text_fails (fl : Floats F) (c : Casts F) (lt : CVal F → CVal F → Bool) (x : F) (hx : fl.finite x = false) :
    ∃ text j, dump fl (-1) 0x20 false .strict (toJson .double (.flt x)) = .ok text ∧ parseAll fl text = .ok j ∧
      get c lt .double j = .throws "type_error.302" := by
  refine ⟨[0x6E, 0x75, 0x6C, 0x6C], .null, ?_, rfl, rfl⟩
  rw [toJson, dump, dumpV, dumpFloat, hx]
  rfl

/-- floating-point numbers 0 and one that is not finite -/
example : ∃ text j, dump (⟨fun _ => false, fun x => !x, fun _ => [0x30]⟩ : Floats Bool) (-1) 0x20 false .strict (toJson .double (.flt true)) = .ok text ∧
    parseAll (⟨fun _ => false, fun x => !x, fun _ => [0x30]⟩ : Floats Bool) text = .ok j ∧
    get ⟨fun _ => false, fun _ => none, id⟩ (fun _ _ => false) .double j = .throws "type_error.302" :=
  C138_text_fails _ _ _ true rfl

/-! ## C139 -/

/-- **C139** (what holds) An integer is read as an integer type as itself, if the type has it; any other as the integer
of the type that is the same modulo `2 ^ w`.  It is never refused. -/
theorem C139_integers (c : Casts F) (lt : CVal F → CVal F → Bool) (s : Bool) (w : Nat) (own : Bool) (hw : w = 8 ∨ w = 16 ∨ w = 32 ∨ w = 64) :
    (∀ i : Int, ∃ r, get c lt (.int s w own) (.int i) = .ok (.int r) ∧ inType s w r ∧ (2 : Int) ^ w ∣ i - r ∧ (inType s w i → r = i)) ∧
    (∀ n : Nat, ∃ r, get c lt (.int s w own) (.uint n) = .ok (.int r) ∧ inType s w r ∧ (2 : Int) ^ w ∣ n - r ∧ (inType s w n → r = n)) := by
  have key : ∀ i : Int, (2 : Int) ^ w ∣ i - wrapTo s w i := by
    intro i
    rw [wrapTo]
    rcases hw with rfl | rfl | rfl | rfl <;> split <;> omega
  exact ⟨fun i => ⟨_, rfl, wrapTo_in hw, key i, wrapTo_id hw⟩, fun n => ⟨_, rfl, wrapTo_in hw, key n, wrapTo_id hw⟩⟩

example : get exCasts exLt (.int true 8 false) (.int 200) = .ok (.int (-56)) ∧ get exCasts exLt (.int true 8 false) (.int 100) = .ok (.int 100) ∧
    get exCasts exLt (.int false 16 false) (.int (-1)) = .ok (.int 65535) := ⟨rfl, rfl, rfl⟩

/-- **C139** (what does not hold) A number the type cannot hold is not reported: 300 is read as 44, -1 as the greatest
unsigned number, `2 ^ 63` as a negative one. -/
theorem C139_integers_fails (c : Casts F) (lt : CVal F → CVal F → Bool) :
    get c lt (.int true 8 false) (.int 300) = .ok (.int 44) ∧ get c lt (.int false 64 true) (.int (-1)) = .ok (.int 18446744073709551615) ∧
    get c lt (.int true 64 true) (.uint 9223372036854775808) = .ok (.int (-9223372036854775808)) := ⟨rfl, rfl, rfl⟩

/-- **C139** A floating-point number is read as its integer part, if the type has that; otherwise (and for NaN and the
infinities) the behaviour is undefined. -/
theorem C139_floats_iff (c : Casts F) (lt : CVal F → CVal F → Bool) (s : Bool) (w : Nat) (own : Bool) (x : F) :
    (∀ v, get c lt (.int s w own) (.float x) = .ok v ↔ ∃ i, c.trunc x = some i ∧ inType s w i ∧ v = .int i) ∧
    (get c lt (.int s w own) (.float x) = .ub ↔ ∀ i, c.trunc x = some i → ¬ inType s w i) := by
  rw [get, getInt, floatToInt]
  cases h : c.trunc x with
  | none => simp
  | some i =>
    by_cases h' : inType s w i
    · simp [h', eq_comm]
    · simp [h']

/-- **C139** (what does not hold) Reading a number from a document as an integer can be undefined: `1e30` as an
`int`. -/
theorem C139_floats_fails (lt : CVal Int → CVal Int → Bool) : get exCasts lt (.int true 32 false) (.float (10 ^ 30)) = .ub := rfl

/-- **C139** (what does not hold) Whether `true` is a number depends on the type asked for: it is 1 as `int`, `float` or
`unsigned char`, and refused as `int64_t`, `uint64_t` and `double`. -/
theorem C139_bool_fails (c : Casts F) (lt : CVal F → CVal F → Bool) (b s : Bool) (w : Nat) :
    get c lt (.int s w false) (.bool b) = .ok (.int (if b then 1 else 0)) ∧ (∃ x, get c lt .float (.bool b) = .ok (.flt x)) ∧
    get c lt (.int s w true) (.bool b) = .throws "type_error.302" ∧ get c lt .double (.bool b) = .throws "type_error.302" :=
  ⟨rfl, ⟨_, rfl⟩, rfl, rfl⟩

/-- **C139** A list, deque, vector, forward_list or valarray is read from an array, whose elements can all be read, and from
nothing else; it has the elements of the array in their order. -/
theorem C139_sequences_iff (c : Casts F) (lt : CVal F → CVal F → Bool) (t : CTy) (j : Json F) (vs : List (CVal F)) (T : CTy)
    (hT : T = .vec t ∨ T = .flist t ∨ T = .valarray t) :
    get c lt T j = .ok (.seq vs) ↔ ∃ xs, j = .arr xs ∧ xs.map (get c lt t) = vs.map .ok := by
  rcases hT with rfl | rfl | rfl
  · cases j <;> simp [get, bind_eq_ok, getEach_eq_ok]
  · cases j <;> simp [get, bind_eq_ok, getEach_eq_ok]
    rename_i xs
    constructor
    · rintro ⟨a, h1, h2⟩
      rw [← h2, List.map_reverse, ← h1, List.reverse_reverse]
    · intro h
      exact ⟨vs.reverse, by rw [List.map_reverse, h], by simp⟩
  · cases j <;> simp [get, bind_eq_ok, getEach_eq_ok]

example : get exCasts exLt (.flist (.int true 32 false)) (.arr [.int 3, .float 5, .bool true]) = .ok (.seq [.int 3, .int 5, .int 1]) := rfl

theorem getN_ok (f : Json F → Outcome (CVal F)) (xs : List (Json F)) (n : Nat) (vs : List (CVal F)) :
    getN f (.arr xs) n 0 = .ok vs ↔ vs.length = n ∧ (xs.take n).map f = vs.map .ok := by
  by_cases h : n ≤ xs.length
  · rw [getN_eq f xs n 0 (by omega), getEach_eq_ok, List.drop_zero]
    refine ⟨fun h' => ⟨?_, h'⟩, fun h' => h'.2⟩
    have := congrArg List.length h'
    simp at this
    omega
  · rw [getN_short f xs n 0 (by omega) (by omega)]
    constructor
    · intro h'
      rw [bind_eq_ok] at h'
      obtain ⟨_, _, h'⟩ := h'
      cases h'
    · rintro ⟨h1, h2⟩
      have := congrArg List.length h2
      simp at this
      omega

/-- **C139** (what holds) A `std::array` or `T[N]` (with `N > 0`) is read from an array of `N` elements or more: it has the
first `N` elements. -/
theorem C139_arrays (c : Casts F) (lt : CVal F → CVal F → Bool) (t : CTy) (n : Nat) (hn : 0 < n) (j : Json F) (vs : List (CVal F)) (T : CTy)
    (hT : T = .array n t ∨ T = .carray n t) :
    get c lt T j = .ok (.seq vs) ↔ ∃ xs, j = .arr xs ∧ vs.length = n ∧ (xs.take n).map (get c lt t) = vs.map .ok := by
  obtain ⟨m, rfl⟩ : ∃ m, n = m + 1 := ⟨n - 1, by omega⟩
  rcases hT with rfl | rfl
  · cases j <;> simp [get, bind_eq_ok, getN_ok]
  · cases j with
    | arr xs => simp [get, bind_eq_ok, getN_ok]
    | _ => simp [get, getN, atIndex]

example : get exCasts exLt (.array 2 .bool) (.arr [.bool true, .bool false]) = .ok (.seq [.bool true, .bool false]) ∧
    get exCasts exLt (.array 2 .bool) (.arr [.bool true]) = .throws "out_of_range.401" := ⟨rfl, rfl⟩

theorem getL_ok (c : Casts F) (lt : CVal F → CVal F → Bool) (xs : List (Json F)) : ∀ (ts : List CTy) (i : Nat) (vs : List (CVal F)),
    getL c lt ts i (.arr xs) = .ok vs ↔ vs.length = ts.length ∧ ∀ k < ts.length, ∃ x v t, xs[i + k]? = some x ∧ vs[k]? = some v ∧ ts[k]? = some t ∧ get c lt t x = .ok v
  | [], i, vs => by cases vs <;> simp [getL]
  | t :: ts, i, vs => by
    rw [getL, bind_eq_ok]
    constructor
    · rintro ⟨x, hx, h⟩
      rw [bind_eq_ok] at h
      obtain ⟨v, hv, h⟩ := h
      rw [bind_eq_ok] at h
      obtain ⟨ws, hws, h⟩ := h
      cases h
      obtain ⟨h1, h2⟩ := (getL_ok c lt xs ts (i + 1) ws).mp hws
      refine ⟨by simp [h1], fun k hk => ?_⟩
      cases k with
      | zero =>
        refine ⟨x, v, t, ?_, rfl, rfl, hv⟩
        rw [atIndex] at hx
        split at hx
        · cases hx; assumption
        · cases hx
      | succ k =>
        obtain ⟨y, u, s, h3, h4, h5, h6⟩ := h2 k (by simp at hk; omega)
        exact ⟨y, u, s, by rw [← h3]; congr 1; omega, by simpa using h4, by simpa using h5, h6⟩
    · rintro ⟨h1, h2⟩
      obtain ⟨x, v, s, h3, h4, h5, h6⟩ := h2 0 (by simp)
      cases vs with
      | nil => simp at h4
      | cons u us =>
        simp at h4 h5
        subst h4 h5
        refine ⟨x, ?_, ?_⟩
        · rw [atIndex]
          simp at h3
          simp [h3]
        · rw [bind_eq_ok]
          refine ⟨u, h6, ?_⟩
          rw [bind_eq_ok]
          refine ⟨us, (getL_ok c lt xs ts (i + 1) us).mpr ⟨by simpa using h1, fun k hk => ?_⟩, rfl⟩
          obtain ⟨y, u', s', h7, h8, h9, h10⟩ := h2 (k + 1) (by simp; omega)
          exact ⟨y, u', s', by rw [← h7]; congr 1; omega, by simpa using h8, by simpa using h9, h10⟩

/-- **C139** A pair or tuple is read from an array that has at least as many elements, each read as its component. -/
theorem C139_tuples_iff (c : Casts F) (lt : CVal F → CVal F → Bool) (ts : List CTy) (hts : ts ≠ []) (j : Json F) (vs : List (CVal F)) :
    get c lt (.tuple ts) j = .ok (.seq vs) ↔ ∃ xs, j = .arr xs ∧ vs.length = ts.length ∧
      ∀ k < ts.length, ∃ x v t, xs[k]? = some x ∧ vs[k]? = some v ∧ ts[k]? = some t ∧ get c lt t x = .ok v := by
  cases j with
  | arr xs =>
    rw [get, bind_eq_ok]
    have := getL_ok c lt xs ts 0
    simp only [Nat.zero_add] at this
    constructor
    · rintro ⟨ws, hws, h⟩
      cases h
      exact ⟨xs, rfl, (this vs).mp hws⟩
    · rintro ⟨ys, h, h'⟩
      cases h
      exact ⟨vs, (this vs).mpr h', rfl⟩
  | _ =>
    cases ts with
    | nil => exact absurd rfl hts
    | cons t ts => simp [get, getL, atIndex]

example : get exCasts exLt (.tuple [.str, .double]) (.arr [.str [97], .int 4]) = .ok (.seq [.str [97], .flt 4]) := rfl

/-- **C139** (what does not hold) Elements an array, pair or tuple has no place for are dropped without an error; a tuple
of nothing can be read from anything. -/
theorem C139_rest_fails (c : Casts F) (lt : CVal F → CVal F → Bool) (j : Json F) :
    get c lt (.array 1 .bool) (.arr [.bool true, j]) = .ok (.seq [.bool true]) ∧
    get c lt (.tuple [.bool, .null]) (.arr [.bool true, .null, j]) = .ok (.seq [.bool true, .null]) ∧
    get c lt (.tuple []) j = .ok (.seq []) ∧ get c lt (.carray 0 .bool) j = .ok (.seq []) := ⟨rfl, rfl, rfl, rfl⟩

/-- **C139** A map with strings for keys is read from an object whose values can all be read: it has the same keys. -/
theorem C139_maps_iff (c : Casts F) (lt : CVal F → CVal F → Bool) (t : CTy) (j : Json F) (ns : List (Bytes × CVal F)) (T : CTy)
    (hT : T = .dict t ∨ T = .mdict t) :
    get c lt T j = .ok (.dict ns) ↔ ∃ ms, j = .obj ms ∧ ms.map (·.1) = ns.map (·.1) ∧ ms.map (fun e => get c lt t e.2) = ns.map fun e => .ok e.2 := by
  have key : ∀ (ms : List (Bytes × Json F)) (ns : List (Bytes × CVal F)),
      ms.map (fun e => get c lt t e.2 >>= fun v => .ok (e.1, v)) = ns.map .ok ↔
      ms.map (·.1) = ns.map (·.1) ∧ ms.map (fun e => get c lt t e.2) = ns.map fun e => .ok e.2 := by
    intro ms
    induction ms with
    | nil => intro ns; simp
    | cons e ms ih =>
      intro ns
      cases ns with
      | nil => simp
      | cons n ns =>
        simp only [List.map_cons, List.cons.injEq, ih, bind_eq_ok]
        constructor
        · rintro ⟨⟨v, h1, h2⟩, h3, h4⟩
          cases h2
          exact ⟨⟨rfl, h3⟩, h1, h4⟩
        · rintro ⟨⟨h1, h2⟩, h3, h4⟩
          exact ⟨⟨n.2, h3, by rw [h1]⟩, h2, h4⟩
  rcases hT with rfl | rfl <;> cases j <;> simp [get, bind_eq_ok, getEach_eq_ok, key]

/-- **C139** (what does not hold) The other maps are read from arrays of pairs: of two pairs with the same key the second is
dropped without an error, and so is what a pair has after its second element. -/
theorem C139_table_fails : get exCasts exLt (.table (.int true 32 false) .bool) (.arr [.arr [.int 1, .bool true], .arr [.int 1, .bool false, .null]]) =
    .ok (.table [(.int 1, .bool true)]) := rfl

theorem mem_tableInsert {lt : CVal F → CVal F → Bool} (htr : ∀ a b d, lt a b = true → lt b d = true → lt a d = true) (k v : CVal F) (e : CVal F × CVal F) :
    ∀ es : List (CVal F × CVal F), es.Pairwise (fun a b => lt a.1 b.1 = true) →
    (e ∈ tableInsert lt k v es ↔ e ∈ es ∨ e = (k, v) ∧ ∀ x ∈ es, lt x.1 k = true ∨ lt k x.1 = true)
  | [], _ => by simp [tableInsert]
  | x :: es, h => by
    rw [List.pairwise_cons] at h
    have ih := mem_tableInsert htr k v e es h.2
    rw [tableInsert]
    split
    · rename_i h1
      rw [List.mem_cons, ih, List.mem_cons]
      simp [h1, or_assoc]
    · rename_i h1
      split
      · rename_i h2
        have : ∀ y ∈ es, lt k y.1 = true := fun y hy => htr _ _ _ h2 (h.1 y hy)
        rw [List.mem_cons, List.mem_cons]
        constructor
        · rintro (rfl | h3)
          · refine .inr ⟨rfl, fun y hy => ?_⟩
            rcases List.mem_cons.mp hy with rfl | hy
            · exact .inr h2
            · exact .inr (this y hy)
          · exact .inl h3
        · rintro (h3 | ⟨rfl, _⟩)
          · exact .inr h3
          · exact .inl rfl
      · rename_i h2
        constructor
        · exact .inl
        · rintro (h3 | ⟨_, h4⟩)
          · exact h3
          · rcases h4 x List.mem_cons_self with h5 | h5
            · exact absurd h5 h1
            · exact absurd h5 h2

theorem sorted_tableInsert {lt : CVal F → CVal F → Bool} (htr : ∀ a b d, lt a b = true → lt b d = true → lt a d = true) (k v : CVal F) :
    ∀ es : List (CVal F × CVal F), es.Pairwise (fun a b => lt a.1 b.1 = true) →
    (tableInsert lt k v es).Pairwise (fun a b => lt a.1 b.1 = true)
  | [], _ => by simp [tableInsert]
  | x :: es, h => by
    have h' := h
    rw [List.pairwise_cons] at h
    have ih := sorted_tableInsert htr k v es h.2
    rw [tableInsert]
    split
    · rename_i h1
      rw [List.pairwise_cons]
      refine ⟨fun y hy => ?_, ih⟩
      rcases (mem_tableInsert htr k v y es h.2).mp hy with h2 | ⟨rfl, _⟩
      · exact h.1 y h2
      · exact h1
    · split
      · rename_i h2
        rw [List.pairwise_cons]
        refine ⟨fun y hy => ?_, h'⟩
        rcases List.mem_cons.mp hy with rfl | hy
        · exact h2
        · exact htr _ _ _ h2 (h.1 y hy)
      · exact h'

theorem sorted_table {lt : CVal F → CVal F → Bool} (htr : ∀ a b d, lt a b = true → lt b d = true → lt a d = true) :
    ∀ (ps t : List (CVal F × CVal F)), t.Pairwise (fun a b => lt a.1 b.1 = true) →
    (ps.foldl (fun t e => tableInsert lt e.1 e.2 t) t).Pairwise (fun a b => lt a.1 b.1 = true)
  | [], _, h => h
  | p :: ps, t, h => sorted_table htr ps _ (sorted_tableInsert htr p.1 p.2 t h)

theorem mem_table {lt : CVal F → CVal F → Bool} (htr : ∀ a b d, lt a b = true → lt b d = true → lt a d = true)
    (hir : ∀ a, lt a a = false) (hwk : ∀ a b d, lt a d = true → lt a b = true ∨ lt b d = true) (ps : List (CVal F × CVal F)) :
    (∀ e, e ∈ ps.foldl (fun t e => tableInsert lt e.1 e.2 t) [] ↔
      ∃ pre post, ps = pre ++ e :: post ∧ ∀ x ∈ pre, lt x.1 e.1 = true ∨ lt e.1 x.1 = true) ∧
    (∀ p ∈ ps, ∃ e ∈ ps.foldl (fun t e => tableInsert lt e.1 e.2 t) [], lt e.1 p.1 = false ∧ lt p.1 e.1 = false) := by
  suffices h : ∀ qs : List (CVal F × CVal F),
    (∀ e, e ∈ qs.reverse.foldl (fun t e => tableInsert lt e.1 e.2 t) [] ↔
      ∃ pre post, qs.reverse = pre ++ e :: post ∧ ∀ x ∈ pre, lt x.1 e.1 = true ∨ lt e.1 x.1 = true) ∧
    (∀ p ∈ qs.reverse, ∃ e ∈ qs.reverse.foldl (fun t e => tableInsert lt e.1 e.2 t) [], lt e.1 p.1 = false ∧ lt p.1 e.1 = false) by
    have := h ps.reverse
    rwa [List.reverse_reverse] at this
  intro qs
  induction qs with
  | nil => simp
  | cons p qs ih =>
  rw [List.reverse_cons]
  generalize qs.reverse = ps at ih ⊢
  obtain ⟨ih1, ih2⟩ := ih
  have hs := sorted_table htr ps [] List.Pairwise.nil
  rw [List.foldl_append, List.foldl_cons, List.foldl_nil]
  have hmem := fun e => mem_tableInsert htr p.1 p.2 e _ hs
  have hall : (∀ x ∈ ps.foldl (fun t e => tableInsert lt e.1 e.2 t) [], lt x.1 p.1 = true ∨ lt p.1 x.1 = true) ↔
      ∀ x ∈ ps, lt x.1 p.1 = true ∨ lt p.1 x.1 = true := by
    constructor
    · intro h x hx
      obtain ⟨e, he, h1, h2⟩ := ih2 x hx
      rcases h e he with h3 | h3
      · rcases hwk _ x.1 _ h3 with h4 | h4
        · rw [h1] at h4; cases h4
        · exact .inl h4
      · rcases hwk _ x.1 _ h3 with h4 | h4
        · exact .inr h4
        · rw [h2] at h4; cases h4
    · intro h x hx
      obtain ⟨pre, post, h1, _⟩ := (ih1 x).mp hx
      exact h x (by rw [h1]; simp)
  constructor
  · intro e
    rw [hmem, ih1, hall]
    constructor
    · rintro (⟨pre, post, h1, h2⟩ | ⟨h1, h2⟩)
      · exact ⟨pre, post ++ [p], by rw [h1]; simp, h2⟩
      · exact ⟨ps, [], by rw [h1], by rw [h1]; exact h2⟩
    · rintro ⟨pre, post, h1, h2⟩
      rcases List.eq_nil_or_concat post with rfl | ⟨post', q, rfl⟩
      · have := List.append_inj' h1 rfl
        obtain ⟨rfl, h3⟩ := this
        cases h3
        exact .inr ⟨rfl, h2⟩
      · have h3 : ps ++ [p] = (pre ++ e :: post') ++ [q] := by rw [h1]; simp
        obtain ⟨h4, _⟩ := List.append_inj' h3 rfl
        exact .inl ⟨pre, post', h4, h2⟩
  · intro x hx
    rcases List.mem_append.mp hx with hx | hx
    · obtain ⟨e, he, h⟩ := ih2 x hx
      exact ⟨e, (hmem e).mpr (.inl he), h⟩
    · rw [List.mem_singleton] at hx
      subst hx
      by_cases h : ∀ y ∈ ps.foldl (fun t e => tableInsert lt e.1 e.2 t) [], lt y.1 x.1 = true ∨ lt x.1 y.1 = true
      · exact ⟨x, (hmem x).mpr (.inr ⟨rfl, h⟩), hir _, hir _⟩
      · have ⟨y, hy⟩ := Classical.not_forall.mp h
        have ⟨hy1, hy2⟩ := Classical.not_imp.mp hy
        refine ⟨y, (hmem y).mpr (.inl hy1), ?_, ?_⟩
        · cases hc : lt y.1 x.1 with
          | false => rfl
          | true => exact absurd (.inl hc) hy2
        · cases hc : lt x.1 y.1 with
          | false => rfl
          | true => exact absurd (.inr hc) hy2

/-- **C139** (what holds) Such a map has the first pair of each key, and no others. -/
theorem C139_table (c : Casts F) (lt : CVal F → CVal F → Bool) (htr : ∀ a b d, lt a b = true → lt b d = true → lt a d = true)
    (hir : ∀ a, lt a a = false) (hwk : ∀ a b d, lt a d = true → lt a b = true ∨ lt b d = true) (k v : CTy) (j : Json F) (es : List (CVal F × CVal F))
    (h : get c lt (.table k v) j = .ok (.table es)) :
    ∃ (xs : List (Json F)) (ps : List (CVal F × CVal F)), j = .arr xs ∧ xs.length = ps.length ∧
      (∀ (i : Nat) (p : CVal F × CVal F), ps[i]? = some p → ∃ a b more, xs[i]? = some (Json.arr (a :: b :: more)) ∧ get c lt k a = .ok p.1 ∧ get c lt v b = .ok p.2) ∧
      ∀ e, e ∈ es ↔ ∃ pre post, ps = pre ++ e :: post ∧ ∀ x ∈ pre, lt x.1 e.1 = true ∨ lt e.1 x.1 = true := by
  cases j with
  | arr xs =>
    rw [get, bind_eq_ok] at h
    obtain ⟨ps, h1, h2⟩ := h
    simp only [Outcome.ok.injEq, CVal.table.injEq] at h2
    subst h2
    rw [getEach_eq_ok] at h1
    refine ⟨xs, ps, rfl, by simpa using congrArg List.length h1, fun i p hp => ?_, (mem_table htr hir hwk ps).1⟩
    have h3 := congrArg (·[i]?) h1
    simp only [List.getElem?_map, hp, Option.map_some, Option.map_eq_some_iff] at h3
    obtain ⟨x, hx, h3⟩ := h3
    cases x with
    | arr ys =>
      rw [getEntry] at h3
      cases ys with
      | nil => simp [atIndex] at h3
      | cons a ys =>
        cases ys with
        | nil =>
          simp [atIndex, bind_eq_ok] at h3
        | cons b more =>
          simp [atIndex, bind_eq_ok] at h3
          obtain ⟨k', hk, v', hv, h4⟩ := h3
          subst h4
          exact ⟨a, b, more, hx, hk, hv⟩
    | _ => simp [getEntry] at h3
  | _ => simp [get] at h

example : get exCasts exLt (.table (.int true 32 false) .str) (.arr [.arr [.int 7, .str [97]], .arr [.int 3, .str [98]], .arr [.int 7, .str [99]]]) =
    .ok (.table [(.int 3, .str [98]), (.int 7, .str [97])]) := rfl

mutual
/-- all integer types are of 8, 16, 32 or 64 bits -/
def widths : CTy → Prop
  | .int _ w _ => w = 8 ∨ w = 16 ∨ w = 32 ∨ w = 64
  | .enum _ w => w = 8 ∨ w = 16 ∨ w = 32 ∨ w = 64
  | .vec t => widths t
  | .flist t => widths t
  | .valarray t => widths t
  | .array _ t => widths t
  | .carray _ t => widths t
  | .tuple ts => widthsL ts
  | .dict t => widths t
  | .mdict t => widths t
  | .table k v => widths k ∧ widths v
  | _ => True
/-- in the components of a tuple -/
def widthsL : List CTy → Prop
  | [] => True
  | t :: ts => widths t ∧ widthsL ts
end

theorem atIndex_ok {j x : Json F} {i : Nat} (h : atIndex j i = .ok x) : ∃ xs, j = .arr xs ∧ x ∈ xs := by
  cases j with
  | arr xs =>
    rw [atIndex] at h
    split at h
    · rename_i h'
      cases h
      exact ⟨xs, rfl, List.mem_of_getElem? h'⟩
    · cases h
  | _ => simp [atIndex] at h

theorem getN_mem {f : Json F → Outcome (CVal F)} {j : Json F} : ∀ {n i : Nat} {vs : List (CVal F)}, getN f j n i = .ok vs →
    vs.length = n ∧ ∀ v ∈ vs, ∃ xs x, j = .arr xs ∧ x ∈ xs ∧ f x = .ok v
  | 0, i, vs, h => by rw [getN] at h; cases h; simp
  | n + 1, i, vs, h => by
    rw [getN, bind_eq_ok] at h
    obtain ⟨x, hx, h⟩ := h
    rw [bind_eq_ok] at h
    obtain ⟨u, hu, h⟩ := h
    rw [bind_eq_ok] at h
    obtain ⟨us, hus, h⟩ := h
    cases h
    obtain ⟨h1, h2⟩ := getN_mem hus
    refine ⟨by simp [h1], fun v hv => ?_⟩
    rcases List.mem_cons.mp hv with rfl | hv
    · obtain ⟨xs, h3, h4⟩ := atIndex_ok hx
      exact ⟨xs, x, h3, h4, hu⟩
    · exact h2 v hv

theorem getEach_mem {A B : Type} {f : A → Outcome B} {xs : List A} {vs : List B} (h : getEach f xs = .ok vs) :
    ∀ v ∈ vs, ∃ x ∈ xs, f x = .ok v := by
  intro v hv
  rw [getEach_eq_ok] at h
  have : Outcome.ok v ∈ xs.map f := by rw [h]; exact List.mem_map_of_mem hv
  obtain ⟨x, hx, h'⟩ := List.mem_map.mp this
  exact ⟨x, hx, h'⟩

theorem ordered_arr {xs : List (Json F)} (h : Ordered (.arr xs)) : ∀ x ∈ xs, Ordered x := by
  rw [Ordered, orderedL_iff] at h
  exact h

theorem mem_of_insert {lt : CVal F → CVal F → Bool} {k v : CVal F} {e : CVal F × CVal F} : ∀ {es : List (CVal F × CVal F)},
    e ∈ tableInsert lt k v es → e ∈ es ∨ e = (k, v)
  | [], h => by simpa [tableInsert] using h
  | x :: es, h => by
    rw [tableInsert] at h
    split at h
    · rcases List.mem_cons.mp h with h | h
      · exact .inl (by simp [h])
      · rcases mem_of_insert h with h | h
        · exact .inl (by simp [h])
        · exact .inr h
    · split at h
      · rcases List.mem_cons.mp h with h | h
        · exact .inr h
        · exact .inl h
      · exact .inl h

theorem mem_of_table {lt : CVal F → CVal F → Bool} {e : CVal F × CVal F} : ∀ {ps t : List (CVal F × CVal F)},
    e ∈ ps.foldl (fun t e => tableInsert lt e.1 e.2 t) t → e ∈ t ∨ e ∈ ps
  | [], t, h => .inl h
  | p :: ps, t, h => by
    rcases mem_of_table (ps := ps) h with h | h
    · rcases mem_of_insert h with h | h
      · exact .inl h
      · exact .inr (by simp [h])
    · exact .inr (by simp [h])

mutual
theorem get_has {c : Casts F} (hr : ∀ x, c.round32 (c.round32 x) = c.round32 x) {lt : CVal F → CVal F → Bool}
    (htr : ∀ a b d, lt a b = true → lt b d = true → lt a d = true) : ∀ (t : CTy) (j : Json F) (v : CVal F), widths t → Ordered j →
    get c lt t j = .ok v → Has c lt t v
  | .null, j, v, _, _, h => by
    cases j <;> simp [get] at h
    subst h; simp [Has]
  | .bool, j, v, _, _, h => by
    cases j <;> simp [get] at h
    subst h; simp [Has]
  | .str, j, v, _, _, h => by
    cases j <;> simp [get] at h
    subst h; simp [Has]
  | .int s w own, j, v, hw, _, h => getInt_has s w own hw h
  | .enum s w, j, v, hw, _, h => by
    have := getInt_has (c := c) (lt := lt) s w true hw (j := j) (v := v) h
    cases v <;> simp [Has] at this ⊢
    exact this
  | .float, j, v, _, _, h => by
    cases j <;> simp [get, getFloat] at h <;> subst h <;> simp [Has, hr]
  | .double, j, v, _, _, h => by
    cases j <;> simp [get, getFloat] at h <;> subst h <;> simp [Has]
  | .json, j, v, _, _, h => by
    simp [get] at h
    subst h; simp [Has]
  | .vec t, j, v, hw, ho, h => by
    cases j <;> simp [get, bind_eq_ok] at h
    obtain ⟨vs, h1, rfl⟩ := h
    rw [widths] at hw
    rw [Has]
    intro u hu
    obtain ⟨x, hx, hg⟩ := getEach_mem h1 u hu
    exact get_has hr htr t x u hw (ordered_arr ho x hx) hg
  | .flist t, j, v, hw, ho, h => by
    cases j <;> simp [get, bind_eq_ok] at h
    obtain ⟨vs, h1, rfl⟩ := h
    rw [widths] at hw
    rw [Has]
    intro u hu
    obtain ⟨x, hx, hg⟩ := getEach_mem h1 u (List.mem_reverse.mp hu)
    exact get_has hr htr t x u hw (ordered_arr ho x (List.mem_reverse.mp hx)) hg
  | .valarray t, j, v, hw, ho, h => by
    cases j <;> simp [get, bind_eq_ok] at h
    obtain ⟨vs, h1, rfl⟩ := h
    rw [widths] at hw
    rw [Has]
    intro u hu
    obtain ⟨x, hx, hg⟩ := getEach_mem h1 u hu
    exact get_has hr htr t x u hw (ordered_arr ho x hx) hg
  | .array n t, j, v, hw, ho, h => by
    cases j <;> simp [get, bind_eq_ok] at h
    obtain ⟨vs, h1, rfl⟩ := h
    rw [widths] at hw
    rw [Has]
    obtain ⟨h2, h3⟩ := getN_mem h1
    refine ⟨h2, fun u hu => ?_⟩
    obtain ⟨xs, x, hj, hx, hg⟩ := h3 u hu
    rw [hj] at ho
    exact get_has hr htr t x u hw (ordered_arr ho x hx) hg
  | .carray n t, j, v, hw, ho, h => by
    rw [get, bind_eq_ok] at h
    obtain ⟨vs, h1, h⟩ := h
    cases h
    rw [widths] at hw
    rw [Has]
    obtain ⟨h2, h3⟩ := getN_mem h1
    refine ⟨h2, fun u hu => ?_⟩
    obtain ⟨xs, x, hj, hx, hg⟩ := h3 u hu
    rw [hj] at ho
    exact get_has hr htr t x u hw (ordered_arr ho x hx) hg
  | .tuple ts, j, v, hw, ho, h => by
    rw [get, bind_eq_ok] at h
    obtain ⟨vs, h1, h⟩ := h
    cases h
    rw [widths] at hw
    rw [Has]
    exact get_hasL hr htr ts 0 j vs hw ho h1
  | .dict t, j, v, hw, ho, h => by
    cases j with
    | obj ms =>
      have h' := h
      rw [get, bind_eq_ok] at h'
      obtain ⟨ns, h1, h2⟩ := h'
      cases h2
      rw [Ordered, orderedM_iff] at ho
      rw [widths] at hw
      rw [Has]
      obtain ⟨ms', hm, hk, _⟩ := (C139_maps_iff c lt t (.obj ms) ns (.dict t) (.inl rfl)).mp h
      cases hm
      refine ⟨?_, fun e he => ?_⟩
      · have := List.pairwise_map.mpr ho.1
        rw [hk] at this
        exact List.pairwise_map.mp this
      · obtain ⟨x, hx, hg⟩ := getEach_mem h1 e he
        rw [bind_eq_ok] at hg
        obtain ⟨u, hu, hg⟩ := hg
        cases hg
        exact get_has hr htr t x.2 u hw (ho.2 x hx) hu
    | _ => simp [get] at h
  | .mdict t, j, v, hw, ho, h => by
    cases j with
    | obj ms =>
      have h' := h
      rw [get, bind_eq_ok] at h'
      obtain ⟨ns, h1, h2⟩ := h'
      cases h2
      rw [Ordered, orderedM_iff] at ho
      rw [widths] at hw
      rw [Has]
      obtain ⟨ms', hm, hk, _⟩ := (C139_maps_iff c lt t (.obj ms) ns (.mdict t) (.inr rfl)).mp h
      cases hm
      refine ⟨?_, fun e he => ?_⟩
      · have := List.pairwise_map.mpr (ho.1.imp fun hab => List.le_of_lt hab)
        rw [hk] at this
        exact List.pairwise_map.mp this
      · obtain ⟨x, hx, hg⟩ := getEach_mem h1 e he
        rw [bind_eq_ok] at hg
        obtain ⟨u, hu, hg⟩ := hg
        cases hg
        exact get_has hr htr t x.2 u hw (ho.2 x hx) hu
    | _ => simp [get] at h
  | .table k u, j, v, hw, ho, h => by
    cases j <;> simp [get, bind_eq_ok] at h
    obtain ⟨ps, h1, rfl⟩ := h
    rw [widths] at hw
    rw [Has]
    refine ⟨sorted_table htr ps [] List.Pairwise.nil, fun e he => ?_⟩
    rcases mem_of_table he with he | he
    · cases he
    · obtain ⟨x, hx, hg⟩ := getEach_mem h1 e he
      have hox := ordered_arr ho x hx
      rw [getEntry.eq_def] at hg
      split at hg
      · rw [bind_eq_ok] at hg
        obtain ⟨a, ha, hg⟩ := hg
        rw [bind_eq_ok] at hg
        obtain ⟨k', hk, hg⟩ := hg
        rw [bind_eq_ok] at hg
        obtain ⟨b, hb, hg⟩ := hg
        rw [bind_eq_ok] at hg
        obtain ⟨v', hv, hg⟩ := hg
        cases hg
        obtain ⟨xs, h2, h3⟩ := atIndex_ok ha
        cases h2
        obtain ⟨ys, h4, h5⟩ := atIndex_ok hb
        cases h4
        exact ⟨get_has hr htr k a k' hw.1 (ordered_arr hox a h3) hk, get_has hr htr u b v' hw.2 (ordered_arr hox b h5) hv⟩
      · cases hg
where
  getInt_has {c : Casts F} {lt : CVal F → CVal F → Bool} {j : Json F} {v : CVal F} (s : Bool) (w : Nat) (own : Bool) (hw : w = 8 ∨ w = 16 ∨ w = 32 ∨ w = 64)
    (h : getInt c s w (!own) j = .ok v) : Has c lt (.int s w own) v := by
    have hb : ∀ b : Bool, inType s w (if b then 1 else 0) := by
      intro b
      rw [inType]
      rcases hw with rfl | rfl | rfl | rfl <;> cases s <;> cases b <;> simp
    cases j <;> simp [getInt] at h
    · cases own <;> simp at h
      subst h
      simp only [Has]
      exact ⟨hw, hb _⟩
    · subst h; simp only [Has]; exact ⟨hw, wrapTo_in hw⟩
    · subst h; simp only [Has]; exact ⟨hw, wrapTo_in hw⟩
    · rw [floatToInt] at h
      split at h
      · split at h
        · cases h; simp only [Has]; exact ⟨hw, by assumption⟩
        · cases h
      · cases h

theorem get_hasL {c : Casts F} (hr : ∀ x, c.round32 (c.round32 x) = c.round32 x) {lt : CVal F → CVal F → Bool}
    (htr : ∀ a b d, lt a b = true → lt b d = true → lt a d = true) : ∀ (ts : List CTy) (i : Nat) (j : Json F) (vs : List (CVal F)), widthsL ts → Ordered j →
    getL c lt ts i j = .ok vs → HasL c lt ts vs
  | [], i, j, vs, _, _, h => by rw [getL] at h; cases h; simp [HasL]
  | t :: ts, i, j, vs, hw, ho, h => by
    rw [getL, bind_eq_ok] at h
    obtain ⟨x, hx, h⟩ := h
    rw [bind_eq_ok] at h
    obtain ⟨u, hu, h⟩ := h
    rw [bind_eq_ok] at h
    obtain ⟨us, hus, h⟩ := h
    cases h
    rw [widthsL] at hw
    rw [HasL]
    refine ⟨get_has hr htr t x u hw.1 ?_ hu, get_hasL hr htr ts (i + 1) j us hw.2 ho hus⟩
    obtain ⟨xs, h1, h2⟩ := atIndex_ok hx
    rw [h1] at ho
    exact ordered_arr ho x h2
end

/-- **C139** (what holds) What `get<T>()` gives is a value of the type: integers in range, arrays of their length, maps in
order. -/
theorem C139_value (c : Casts F) (hr : ∀ x, c.round32 (c.round32 x) = c.round32 x) (lt : CVal F → CVal F → Bool)
    (htr : ∀ a b d, lt a b = true → lt b d = true → lt a d = true) (t : CTy) (hw : widths t) (j : Json F) (ho : Ordered j) (v : CVal F)
    (h : get c lt t j = .ok v) : Has c lt t v := get_has hr htr t j v hw ho h

/-- `std::tuple<std::map<int, std::string>, std::array<std::uint8_t, 2>>` -/
example : widths (.tuple [.table (.int true 32 false) .str, .array 2 (.int false 8 false)]) ∧
    Ordered (.arr [.arr [.arr [.int 4, .str []]], .arr [.int 300, .uint 7]] : Json Int) ∧
    get exCasts exLt (.tuple [.table (.int true 32 false) .str, .array 2 (.int false 8 false)])
      (.arr [.arr [.arr [.int 4, .str []]], .arr [.int 300, .uint 7]]) =
      .ok (.seq [.table [(.int 4, .str [])], .seq [.int 44, .int 7]]) :=
  ⟨by simp [widths, widthsL], by simp [Ordered, OrderedL], rfl⟩

mutual
/-- the integer types in a type -/
def intTypes : CTy → List (Bool × Nat)
  | .int s w _ => [(s, w)]
  | .enum s w => [(s, w)]
  | .vec t => intTypes t
  | .flist t => intTypes t
  | .valarray t => intTypes t
  | .array _ t => intTypes t
  | .carray _ t => intTypes t
  | .tuple ts => intTypesL ts
  | .dict t => intTypes t
  | .mdict t => intTypes t
  | .table k v => intTypes k ++ intTypes v
  | _ => []
/-- in the components of a tuple -/
def intTypesL : List CTy → List (Bool × Nat)
  | [] => []
  | t :: ts => intTypes t ++ intTypesL ts
end

/-- how a conversion can end: with a value, with one of three exceptions, or – if there is a floating-point
number the bad integer types `B` and the floats `X` have – undefined -/
def ConvEnds (c : Casts F) (B : List (Bool × Nat)) (X : List F) {A : Type} (r : Outcome A) : Prop :=
  (∃ v, r = .ok v) ∨ (∃ k, (k = "type_error.302" ∨ k = "type_error.304" ∨ k = "out_of_range.401") ∧ r = .throws k) ∨
  r = .ub ∧ ∃ b ∈ B, ∃ x ∈ X, ∀ i, c.trunc x = some i → ¬ inType b.1 b.2 i

theorem convEnds_bind {c : Casts F} {B : List (Bool × Nat)} {X : List F} {A C : Type} {r : Outcome A} {f : A → Outcome C} (h : ConvEnds c B X r)
    (hf : ∀ a, r = .ok a → ConvEnds c B X (f a)) : ConvEnds c B X (r >>= f) := by
  rcases h with ⟨v, rfl⟩ | ⟨k, hk, rfl⟩ | ⟨rfl, h⟩
  · exact hf v rfl
  · exact .inr (.inl ⟨k, hk, rfl⟩)
  · exact .inr (.inr ⟨rfl, h⟩)

theorem convEnds_mono {c : Casts F} {B B' : List (Bool × Nat)} {X X' : List F} {A : Type} {r : Outcome A} (hB : B ⊆ B') (hX : X ⊆ X')
    (h : ConvEnds c B X r) : ConvEnds c B' X' r := by
  rcases h with h | h | ⟨h, b, hb, x, hx, h'⟩
  · exact .inl h
  · exact .inr (.inl h)
  · exact .inr (.inr ⟨h, b, hB hb, x, hX hx, h'⟩)

theorem convEnds_ok {c : Casts F} {B : List (Bool × Nat)} {X : List F} {A : Type} (a : A) : ConvEnds c B X (.ok a) := .inl ⟨a, rfl⟩

theorem convEnds_each {c : Casts F} {B : List (Bool × Nat)} {X : List F} {A C : Type} {f : A → Outcome C} : ∀ {xs : List A},
    (∀ x ∈ xs, ConvEnds c B X (f x)) → ConvEnds c B X (getEach f xs)
  | [], _ => convEnds_ok _
  | x :: xs, h => by
    rw [getEach]
    exact convEnds_bind (h x (by simp)) fun _ _ => convEnds_bind (convEnds_each fun y hy => h y (by simp [hy])) fun _ _ => convEnds_ok _

theorem convEnds_at {c : Casts F} {B : List (Bool × Nat)} {X : List F} (j : Json F) (i : Nat) : ConvEnds c B X (atIndex j i) := by
  rw [atIndex.eq_def]
  split
  · split
    · exact convEnds_ok _
    · exact .inr (.inl ⟨_, .inr (.inr rfl), rfl⟩)
  · exact .inr (.inl ⟨_, .inr (.inl rfl), rfl⟩)

theorem convEnds_302 {c : Casts F} {B : List (Bool × Nat)} {X : List F} {A : Type} : ConvEnds c B X (.throws "type_error.302" : Outcome A) :=
  .inr (.inl ⟨_, .inl rfl, rfl⟩)

theorem floats_arr {xs : List (Json F)} {x : Json F} (h : x ∈ xs) : floats x ⊆ floats (.arr xs) := by
  intro y hy
  rw [floats, mem_floatsL]
  exact ⟨x, h, hy⟩

theorem floats_obj {ms : List (Bytes × Json F)} {e : Bytes × Json F} (h : e ∈ ms) : floats e.2 ⊆ floats (.obj ms) := by
  intro y hy
  rw [floats, mem_floatsM]
  exact ⟨e, h, hy⟩

theorem convEnds_n {c : Casts F} {B : List (Bool × Nat)} {f : Json F → Outcome (CVal F)} {j : Json F} (h : ∀ x, ConvEnds c B (floats x) (f x)) :
    ∀ (n i : Nat), ConvEnds c B (floats j) (getN f j n i)
  | 0, i => convEnds_ok _
  | n + 1, i => by
    rw [getN]
    refine convEnds_bind (convEnds_at j i) fun x hx => ?_
    obtain ⟨xs, rfl, hx'⟩ := atIndex_ok hx
    exact convEnds_bind (convEnds_mono (List.Subset.refl _) (floats_arr hx') (h x)) fun _ _ =>
      convEnds_bind (convEnds_n h n (i + 1)) fun _ _ => convEnds_ok _

theorem convEnds_int {c : Casts F} (s : Bool) (w : Nat) (b : Bool) (j : Json F) : ConvEnds c [(s, w)] (floats j) (getInt c s w b j) := by
  rw [getInt.eq_def]
  split
  · exact convEnds_ok _
  · exact convEnds_ok _
  · rename_i x
    rw [floatToInt]
    split
    · rename_i i hi
      split
      · exact convEnds_ok _
      · rename_i h
        refine .inr (.inr ⟨rfl, (s, w), by simp, x, by simp [floats], fun k hk => ?_⟩)
        rw [hi] at hk
        cases hk
        exact h
    · rename_i hi
      refine .inr (.inr ⟨rfl, (s, w), by simp, x, by simp [floats], fun k hk => ?_⟩)
      rw [hi] at hk
      cases hk
  · split
    · exact convEnds_ok _
    · exact convEnds_302
  · exact convEnds_302

mutual
theorem get_ends (c : Casts F) (lt : CVal F → CVal F → Bool) : ∀ (t : CTy) (j : Json F), ConvEnds c (intTypes t) (floats j) (get c lt t j)
  | .null, j => by rw [get.eq_def]; dsimp only; split <;> first | exact convEnds_ok _ | exact convEnds_302
  | .bool, j => by rw [get.eq_def]; dsimp only; split <;> first | exact convEnds_ok _ | exact convEnds_302
  | .str, j => by rw [get.eq_def]; dsimp only; split <;> first | exact convEnds_ok _ | exact convEnds_302
  | .int s w own, j => convEnds_int s w (!own) j
  | .enum s w, j => convEnds_int s w false j
  | .float, j => by
    rw [get, getFloat.eq_def]
    split <;> first | exact convEnds_ok _ | exact convEnds_302
  | .double, j => by
    rw [get, getFloat.eq_def]
    split <;> first | exact convEnds_ok _ | exact convEnds_302
  | .json, j => convEnds_ok _
  | .vec t, j => by
    cases j with
    | arr xs =>
      exact convEnds_bind (convEnds_each fun x hx => convEnds_mono (List.Subset.refl _) (floats_arr hx) (get_ends c lt t x)) fun _ _ => convEnds_ok _
    | _ => exact convEnds_302
  | .flist t, j => by
    cases j with
    | arr xs =>
      exact convEnds_bind (convEnds_each fun x hx => convEnds_mono (List.Subset.refl _) (floats_arr (List.mem_reverse.mp hx)) (get_ends c lt t x)) fun _ _ => convEnds_ok _
    | _ => exact convEnds_302
  | .valarray t, j => by
    cases j with
    | arr xs =>
      exact convEnds_bind (convEnds_each fun x hx => convEnds_mono (List.Subset.refl _) (floats_arr hx) (get_ends c lt t x)) fun _ _ => convEnds_ok _
    | _ => exact convEnds_302
  | .array n t, j => by
    cases j with
    | arr xs => exact convEnds_bind (convEnds_n (get_ends c lt t) n 0) fun _ _ => convEnds_ok _
    | _ => exact convEnds_302
  | .carray n t, j => convEnds_bind (convEnds_n (get_ends c lt t) n 0) fun _ _ => convEnds_ok _
  | .tuple ts, j => convEnds_bind (get_endsL c lt ts 0 j) fun _ _ => convEnds_ok _
  | .dict t, j => by
    cases j with
    | obj ms =>
      exact convEnds_bind (convEnds_each fun x hx => convEnds_bind (convEnds_mono (List.Subset.refl _) (floats_obj hx) (get_ends c lt t x.2)) fun _ _ => convEnds_ok _)
        fun _ _ => convEnds_ok _
    | _ => exact convEnds_302
  | .mdict t, j => by
    cases j with
    | obj ms =>
      exact convEnds_bind (convEnds_each fun x hx => convEnds_bind (convEnds_mono (List.Subset.refl _) (floats_obj hx) (get_ends c lt t x.2)) fun _ _ => convEnds_ok _)
        fun _ _ => convEnds_ok _
    | _ => exact convEnds_302
  | .table k v, j => by
    cases j with
    | arr xs =>
      refine convEnds_bind (convEnds_each fun x hx => ?_) fun _ _ => convEnds_ok _
      cases x with
      | arr ys =>
        rw [getEntry]
        refine convEnds_bind (convEnds_at _ _) fun a ha => ?_
        obtain ⟨_, h1, h2⟩ := atIndex_ok ha
        cases h1
        refine convEnds_bind (convEnds_mono (by simp [intTypes]) (List.Subset.trans (floats_arr h2) (floats_arr hx)) (get_ends c lt k a)) fun _ _ => ?_
        refine convEnds_bind (convEnds_at _ _) fun b hb => ?_
        obtain ⟨_, h1, h2⟩ := atIndex_ok hb
        cases h1
        exact convEnds_bind (convEnds_mono (by simp [intTypes]) (List.Subset.trans (floats_arr h2) (floats_arr hx)) (get_ends c lt v b)) fun _ _ => convEnds_ok _
      | _ => exact convEnds_302
    | _ => exact convEnds_302

theorem get_endsL (c : Casts F) (lt : CVal F → CVal F → Bool) : ∀ (ts : List CTy) (i : Nat) (j : Json F),
    ConvEnds c (intTypesL ts) (floats j) (getL c lt ts i j)
  | [], _, _ => convEnds_ok _
  | t :: ts, i, j => by
    rw [getL]
    refine convEnds_bind (convEnds_at j i) fun x hx => ?_
    obtain ⟨xs, rfl, hx'⟩ := atIndex_ok hx
    exact convEnds_bind (convEnds_mono (by simp [intTypesL]) (floats_arr hx') (get_ends c lt t x)) fun _ _ =>
      convEnds_bind (convEnds_mono (by simp [intTypesL]) (List.Subset.refl _) (get_endsL c lt ts (i + 1) _)) fun _ _ => convEnds_ok _
end

/-- **C139** (what holds) `get<T>()` ends with a value or with one of the exceptions `type_error.302` and `.304` and
`out_of_range.401`, unless the JSON value has a floating-point number in it whose integer part is not in some integer type
in `T`. -/
theorem C139_ends (c : Casts F) (lt : CVal F → CVal F → Bool) (t : CTy) (j : Json F) :
    (∃ v, get c lt t j = .ok v) ∨
    (∃ k, (k = "type_error.302" ∨ k = "type_error.304" ∨ k = "out_of_range.401") ∧ get c lt t j = .throws k) ∨
    get c lt t j = .ub ∧ ∃ b ∈ intTypes t, ∃ x ∈ floats j, ∀ i, c.trunc x = some i → ¬ inType b.1 b.2 i := get_ends c lt t j

example : intTypes (.vec (.tuple [.enum true 32, .dict (.int false 8 false)])) = [(true, 32), (false, 8)] ∧
    get exCasts exLt (.vec (.tuple [.enum true 32, .str])) (.arr [.arr [.float 3, .str []], .arr [.float (-5)]]) = .throws "out_of_range.401" := ⟨rfl, rfl⟩

/-! ### `get_to` -/

/-- a type `get_to` assigns to as a whole -/
def whole : CTy → Bool
  | .flist _ => false
  | .valarray _ => false
  | .array _ _ => false
  | .carray _ _ => false
  | .table _ _ => false
  | _ => true

theorem storeEach_eq {A B : Type} (f : A → Outcome B) : ∀ xs : List A,
    (storeEach f xs).2 = (getEach f xs >>= fun _ => .ok ()) ∧ ∀ vs, getEach f xs = .ok vs → (storeEach f xs).1 = vs
  | [] => ⟨rfl, fun vs h => by cases h; rfl⟩
  | x :: xs => by
    obtain ⟨h1, h2⟩ := storeEach_eq f xs
    rw [storeEach, getEach]
    cases h : f x with
    | ok v =>
      simp only [Outcome.bind_ok, h1]
      refine ⟨?_, fun vs h' => ?_⟩
      · cases getEach f xs <;> rfl
      · rw [bind_eq_ok] at h'
        obtain ⟨us, hus, h'⟩ := h'
        cases h'
        rw [h2 us hus]
    | _ => exact ⟨rfl, fun vs h' => by cases h'⟩

theorem getN_each (f : Json F → Outcome (CVal F)) (j : Json F) : ∀ n i : Nat,
    getN f j n i = getEach (fun k => atIndex j k >>= f) (List.range' i n)
  | 0, i => rfl
  | n + 1, i => by
    rw [getN, List.range'_succ, getEach, getN_each f j n (i + 1)]
    cases atIndex j i <;> rfl

/-- **C139** `get_to` ends as `get` ends, and if that gives a value the variable has it. -/
theorem C139_get_to (c : Casts F) (lt : CVal F → CVal F → Bool) (t : CTy) (j : Json F) (old : CVal F) (ho : Has c lt t old) :
    (getTo c lt t j old).2 = (get c lt t j >>= fun _ => .ok ()) ∧
    ∀ v, get c lt t j = .ok v → (getTo c lt t j old).1 = v := by
  have hwhole : ∀ r : Outcome (CVal F), (storeWhole r old).2 = (r >>= fun _ => .ok ()) ∧ ∀ v, r = .ok v → (storeWhole r old).1 = v := by
    intro r
    cases r <;> simp [storeWhole]
  have harr : ∀ (n : Nat) (t' : CTy), (∃ vs, old = .seq vs ∧ vs.length = n) → ∀ r, r = (getN (get c lt t') j n 0 >>= fun vs => .ok (CVal.seq vs)) →
      let s := storeEach (fun i => atIndex j i >>= get c lt t') (List.range n)
      s.2 = (r >>= fun _ => .ok ()) ∧ ∀ v, r = .ok v → .seq (s.1 ++ (seqOf old).drop s.1.length) = v := by
    rintro n t' ⟨us, rfl, hl⟩ r rfl
    rw [getN_each, List.range_eq_range']
    obtain ⟨h1, h2⟩ := storeEach_eq (fun i => atIndex j i >>= get c lt t') (List.range' 0 n)
    refine ⟨?_, fun v hv => ?_⟩
    · rw [h1]
      cases getEach (fun i => atIndex j i >>= get c lt t') (List.range' 0 n) <;> rfl
    · rw [bind_eq_ok] at hv
      obtain ⟨vs, hvs, hv⟩ := hv
      cases hv
      have hlen := congrArg List.length (getEach_eq_ok.mp hvs)
      simp at hlen
      simp only [h2 vs hvs, seqOf]
      rw [List.drop_of_length_le (by omega), List.append_nil]
  rw [getTo.eq_def]
  split
  · rename_i t' xs
    obtain ⟨h1, h2⟩ := storeEach_eq (get c lt t') xs.reverse
    refine ⟨?_, fun v hv => ?_⟩
    · rw [h1, get]
      cases getEach (get c lt t') xs.reverse <;> rfl
    · rw [get, bind_eq_ok] at hv
      obtain ⟨vs, hvs, hv⟩ := hv
      cases hv
      rw [h2 vs hvs]
  · rename_i t' xs
    obtain ⟨h1, h2⟩ := storeEach_eq (get c lt t') xs
    refine ⟨?_, fun v hv => ?_⟩
    · rw [h1, get]
      cases getEach (get c lt t') xs <;> rfl
    · rw [get, bind_eq_ok] at hv
      obtain ⟨vs, hvs, hv⟩ := hv
      cases hv
      have hlen := congrArg List.length (getEach_eq_ok.mp hvs)
      simp at hlen
      rw [h2 vs hvs, hlen]
      simp
  · rename_i n t' xs
    refine harr n t' ?_ _ rfl
    cases old <;> simp [Has] at ho
    exact ⟨_, rfl, ho.1⟩
  · rename_i n t'
    refine harr n t' ?_ _ rfl
    cases old <;> simp [Has] at ho
    exact ⟨_, rfl, ho.1⟩
  · rename_i k v' ps
    obtain ⟨h1, h2⟩ := storeEach_eq (getEntry (get c lt k) (get c lt v')) ps
    refine ⟨?_, fun v hv => ?_⟩
    · rw [h1, get]
      cases getEach (getEntry (get c lt k) (get c lt v')) ps <;> rfl
    · rw [get, bind_eq_ok] at hv
      obtain ⟨vs, hvs, hv⟩ := hv
      cases hv
      rw [h2 vs hvs]
  · exact hwhole _

/-- **C139** (what holds) If `get_to` fails, the variable has its old value: unless it is a forward_list, a valarray, an
array or a map with other keys than strings. -/
theorem C139_get_to_partial (c : Casts F) (lt : CVal F → CVal F → Bool) (t : CTy) (ht : whole t = true) (j : Json F) (old : CVal F)
    (hf : (getTo c lt t j old).2 ≠ .ok ()) : (getTo c lt t j old).1 = old := by
  have : getTo c lt t j old = storeWhole (get c lt t j) old := by
    cases t <;> simp [whole] at ht <;> rfl
  rw [this] at hf ⊢
  revert hf
  cases get c lt t j <;> simp [storeWhole]

example : getTo exCasts exLt (.vec .bool) (.arr [.bool true, .null]) (.seq [.bool false]) = (.seq [.bool false], .throws "type_error.302") := rfl

/-- **C139** (what does not hold) These five are left neither old nor new: a forward_list with the elements behind the one that
cannot be read, a valarray of the new length with zeros from there on, an array with old elements from there on, a map
with the entries before. -/
theorem C139_get_to_fails :
    getTo exCasts exLt (.flist .bool) (.arr [.null, .bool true]) (.seq [.bool false]) = (.seq [.bool true], .throws "type_error.302") ∧
    getTo exCasts exLt (.valarray .double) (.arr [.int 7, .null, .int 8]) (.seq [.flt 1]) = (.seq [.flt 7, .flt 0, .flt 0], .throws "type_error.302") ∧
    getTo exCasts exLt (.array 2 .bool) (.arr [.bool true]) (.seq [.bool false, .bool false]) = (.seq [.bool true, .bool false], .throws "out_of_range.401") ∧
    getTo exCasts exLt (.carray 2 .bool) (.arr [.bool true]) (.seq [.bool false, .bool false]) = (.seq [.bool true, .bool false], .throws "out_of_range.401") ∧
    getTo exCasts exLt (.table (.int true 32 false) .bool) (.arr [.arr [.int 3, .bool true], .null]) (.table [(.int 1, .bool true), (.int 2, .bool true)]) =
      (.table [(.int 3, .bool true)], .throws "type_error.302") := ⟨rfl, rfl, rfl, rfl, rfl⟩

/-- **C139** (what holds) Of the other types exactly the kind of the type is read, and gives what is stored: null, booleans
and strings.  A number, of any of the three kinds, is read as a floating-point number by the conversion the compiler
provides, rounded once more for `float`. -/
theorem C139_scalars_iff (c : Casts F) (lt : CVal F → CVal F → Bool) (j : Json F) (v : CVal F) :
    (get c lt .null j = .ok v ↔ j = .null ∧ v = .null) ∧
    (get c lt .bool j = .ok v ↔ ∃ b, j = .bool b ∧ v = .bool b) ∧
    (get c lt .str j = .ok v ↔ ∃ s, j = .str s ∧ v = .str s) ∧
    (get c lt .double j = .ok v ↔ (∃ i : Int, (j = .int i ∨ ∃ n : Nat, j = .uint n ∧ i = n) ∧ v = .flt (c.ofInt i)) ∨
      ∃ x, j = .float x ∧ v = .flt x) ∧
    (get c lt .float j = .ok v ↔
      (∃ i : Int, (j = .int i ∨ (∃ n : Nat, j = .uint n ∧ i = n) ∨ ∃ b, j = .bool b ∧ i = if b then 1 else 0) ∧
        v = .flt (c.round32 (c.ofInt i))) ∨ ∃ x, j = .float x ∧ v = .flt (c.round32 x)) := by
  cases j <;> simp [get, getFloat, eq_comm]

example : get exCasts exLt .double (.uint 7) = .ok (.flt 7) := rfl

/-! ## C140 -/

/-- **C140** (what holds) `get_ptr` gives a pointer exactly if the value is of the type asked for, except that
`number_integer_t` is also given for unsigned numbers. -/
theorem C140_pointer_partial (j : Json F) :
    (hasPtr .object j = true ↔ ∃ ms, j = .obj ms) ∧ (hasPtr .array j = true ↔ ∃ xs, j = .arr xs) ∧
    (hasPtr .string j = true ↔ ∃ s, j = .str s) ∧ (hasPtr .boolean j = true ↔ ∃ b, j = .bool b) ∧
    (hasPtr .unsigned j = true ↔ ∃ n, j = .uint n) ∧ (hasPtr .float j = true ↔ ∃ x, j = .float x) ∧
    (hasPtr .integer j = true ↔ (∃ i, j = .int i) ∨ ∃ n, j = .uint n) := by
  cases j <;> simp [hasPtr]

/-- **C140** (what does not hold) So more than one of the pointers can be had of one value. -/
theorem C140_pointer_fails (n : Nat) : hasPtr .integer (.uint n : Json F) = true ∧ hasPtr .unsigned (.uint n : Json F) = true := ⟨rfl, rfl⟩

/-- **C140** (what holds) A number below `2 ^ 63` is read as itself through a reference to `number_integer_t`, signed or not. -/
theorem C140_read_iff (j : Json F) (hj : Held j) (i : Int) (hi : j = .int i ∨ ∃ n : Nat, j = .uint n ∧ i = n) :
    readInteger j = .ok i ↔ i < 2 ^ 63 := by
  rcases hi with rfl | ⟨n, rfl, rfl⟩
  · rw [Held] at hj
    simp [readInteger]
    omega
  · rw [Held] at hj
    simp only [readInteger, wrapTo, Outcome.ok.injEq]
    have h1 : (n : Int) % 2 ^ 64 = n := by omega
    rw [h1]
    split
    · rename_i h
      simp at h
      omega
    · rename_i h
      simp at h
      omega

example : readInteger (.uint 7 : Json Int) = .ok 7 := rfl

/-- **C140** (what does not hold) A greater one is read as a negative number: `2 ^ 64 - 1` as -1. -/
theorem C140_read_fails : readInteger (.uint 18446744073709551615 : Json F) = .ok (-1) := rfl

/-- **C140** (what holds) What is written through a reference is what is read through it afterwards; the type of the value
stays. -/
theorem C140_write (i : Int) (hi : inType true 64 i) (j : Json F) (j' : Json F) (h : writeInteger i j = .ok j') :
    readInteger j' = .ok i ∧ ((∃ k, j' = .int k) ↔ ∃ k, j = .int k) ∧ (0 ≤ i → j' = .int i ∨ j' = .uint i.toNat) := by
  rw [inType] at hi
  simp at hi
  cases j <;> simp [writeInteger] at h <;> subst h
  · simp [readInteger]
  · refine ⟨?_, by simp, fun h0 => .inr ?_⟩
    · simp only [readInteger, wrapTo, Outcome.ok.injEq]
      have : (((i % 18446744073709551616).toNat : Nat) : Int) = i % 18446744073709551616 := by omega
      rw [this]
      split
      · rename_i h
        simp at h
        omega
      · rename_i h
        simp at h
        omega
    · congr 1
      omega

example : writeInteger 5 (.uint 7 : Json Int) = .ok (.uint 5) ∧ inType true 64 5 := ⟨rfl, by decide⟩

/-- **C140** (what holds) Through a reference to `number_unsigned_t` exactly the unsigned numbers can be reached, and reading
and writing is exact. -/
theorem C140_unsigned (n : Nat) (j j' : Json F) :
    (readUnsigned j = .ok n ↔ j = .uint n) ∧ (writeUnsigned n j = .ok j' ↔ (∃ m, j = .uint m) ∧ j' = .uint n) ∧
    ((¬∃ m, j = .uint m) → readUnsigned j = .throws "type_error.303" ∧ writeUnsigned n j = .throws "type_error.303") := by
  cases j <;> simp [readUnsigned, writeUnsigned, eq_comm]

example : writeUnsigned 3 (.uint 7 : Json Int) = .ok (.uint 3) := rfl

/-- **C140** (what does not hold) A negative number written so to an unsigned one – any number read from a text
without a sign is one – is a great positive number for everything else, and in the text. -/
theorem C140_write_fails (fl : Floats F) : writeInteger (-1) (.uint 5 : Json F) = .ok (.uint 18446744073709551615) ∧
    parseAll fl [0x35] = .ok (.uint 5) ∧
    dump fl (-1) 0x20 false .strict (.uint 18446744073709551615) =
      .ok [0x31, 0x38, 0x34, 0x34, 0x36, 0x37, 0x34, 0x34, 0x30, 0x37, 0x33, 0x37, 0x30, 0x39, 0x35, 0x35, 0x31, 0x36, 0x31, 0x35] :=
  ⟨rfl, rfl, rfl⟩

end Verif.Json
