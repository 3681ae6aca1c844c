import Verif.LuaStack.Props

/-! # C56: results in order; C57: tables to containers; C73: defaults -/

namespace Verif.LuaStack

variable {F : Type}

/-! ## C56 -/

/-- C56: a call applies the function to the arguments in order (an array becomes its elements) and
its result object holds all the values returned -/
theorem C56_call (L : Lua F) (s : St F) (f size : Nat) (args : List (Arg F)) (rs : List (Val F)) (m : Mem F) (last : Val F)
    (ha : L.apply s.mem f (argsVals args) = .results m rs) (hl : rs.getLast? = some last) (hn : last ≠ .nil)
    (hm : s.stack.length + (argsVals args).length + 2 ≤ L.maxStack)
    (hc : (∀ a ∈ args, (argVals a).length ≤ 1) ∨ s.stack.length + 1 + (argsVals args).length ≤ s.cap) :
    ∃ s', callResult L ⟨[.func f], size⟩ args s = .ok ⟨rs.reverse, rs.length⟩ s' ∧ s'.stack = s.stack ∧ s'.mem = m ∧
      s.cap ≤ s'.cap ∧ s.stack.length + rs.length ≤ s'.cap := by
  obtain ⟨s1, e1, h1, m1, c1, -⟩ := checkStack_ok L 1 (s := s) rfl (by omega)
  obtain ⟨s2, e2, h2, m2, c2, -⟩ := pushLast_ok L ⟨[.func f], size⟩ (.func f) rfl h1 (by omega)
  obtain ⟨s3, e3, h3, m3, c3⟩ := pushArgs_ok L args h2 (by simp only [List.length_cons]; omega) (by
    rcases hc with hc | hc
    · exact .inl hc
    · right; simp only [List.length_cons]; omega)
  have ef : checkFunction s2 = .ok f s2 := by
    obtain ⟨a, ha, e⟩ | ⟨h, -⟩ := checkFunction_eq h2
    · cases ha; exact e
    · exact absurd rfl (h f)
  have ea : (s3.stack.take (argsVals args).length).reverse = argsVals args := by
    rw [h3, List.take_left' (by simp)]; simp
  have eb : s3.stack.drop ((argsVals args).length + 1) = s.stack := by
    rw [h3, List.drop_append, List.drop_eq_nil_of_le (by simp)]; simp
  have em : s3.mem = s.mem := m3.trans (m2.trans m1)
  obtain ⟨s4, es4⟩ : ∃ s4 : St F, s4 = { s3 with mem := m, stack := rs.reverse ++ s.stack, cap := max s3.cap (rs.reverse ++ s.stack).length } := ⟨_, rfl⟩
  have e4 : pcall (fun m as => L.apply m f as) (argsVals args).length s3 = .ok true s4 := by
    simp only [pcall, ea, eb, em, ha, es4]
  have h4 : s4.stack = rs.reverse ++ s.stack := by rw [es4]
  obtain ⟨rs', rfl⟩ : ∃ rs', rs = rs' ++ [last] := by
    rw [List.getLast?_eq_some_iff] at hl
    exact hl
  have e5 : peek (-1) s4 = .ok last s4 := peek_eq (l := rs'.reverse ++ s.stack) (by rw [h4]; simp)
  refine ⟨s4.on s.stack, ?_, rfl, by rw [es4]; rfl, ?_, ?_⟩
  · unfold callResult
    rw [bind_of_ok (gettop_eq s), bind_of_ok e1, bind_of_ok e2, bind_of_ok ef, bind_of_ok e3, bind_of_ok e4, if_pos rfl,
      bind_of_ok e5]
    have en : s4.stack.length - s.stack.length = (rs' ++ [last]).reverse.length := by
      rw [h4]; simp only [List.length_append, List.length_reverse]; omega
    cases last with
    | nil => exact absurd rfl hn
    | _ =>
      dsimp only
      rw [bind_of_ok (gettop_eq s4), en, bind_of_ok (makeRefs_eq _ 0 h4)]
      simp
  · rw [es4]; simp only [St.on_cap]; omega
  · rw [es4]; simp only [St.on_cap, List.length_append, List.length_reverse]; omega

/-- the example function swaps its arguments and adds a 7 -/
example : ∃ s', callResult exLua ⟨[.func 1], 0⟩ [.num 5, .bool true] exSt = .ok ⟨[.int 7, .num 5, .bool true], 3⟩ s' ∧
    s'.stack = [] := by
  obtain ⟨s', h, h', -⟩ := C56_call exLua exSt 1 0 [.num 5, .bool true] [.bool true, .num 5, .int 7] exMem (.int 7) rfl rfl
    (by simp) (by decide) (.inl (by simp [argVals]))
  exact ⟨s', h, h'⟩

theorem getResults_ok (L : Lua F) : ∀ (ts : List Ty) (vs rest : List (Val F)) (cs : List (CVal F)) (s : St F),
    s.stack = vs ++ rest → vs.length = ts.length → cs.length = ts.length → (∀ t ∈ ts, Widths t) →
    (∀ t ∈ ts, rest.length + vs.length + depth t ≤ s.cap) →
    (∀ (i : Nat) (h : i < ts.length) (h1 : i < vs.length) (h2 : i < cs.length), Repr L s.mem ts[i] vs[i] cs[i]) →
    ∃ s', getResults L ts s = .ok cs s' ∧ s'.stack = rest ∧ s'.mem = s.mem := by
  intro ts
  induction ts with
  | nil =>
    intro vs rest cs s h hv hc _ _ _
    obtain rfl : vs = [] := by simpa using hv
    obtain rfl : cs = [] := by simpa using hc
    exact ⟨s, rfl, by simpa using h, rfl⟩
  | cons t ts ih =>
    intro vs rest cs s h hv hc hw hd hr
    cases vs with
    | nil => simp at hv
    | cons v vs =>
      cases cs with
      | nil => simp at hc
      | cons c cs =>
        have h0 := hr 0 (by simp) (by simp) (by simp)
        simp only [List.getElem_cons_zero] at h0
        have hd0 := hd t (by simp)
        simp only [List.length_cons] at hd0
        have e := get_repr L t s v (vs ++ rest) c (hw t (by simp)) (by simp only [List.length_append]; omega) h0
        rw [← List.cons_append, ← h, St.on_self] at e
        obtain ⟨s', e', h1, h2⟩ := ih vs rest cs (s.on (vs ++ rest)) rfl (by simpa using hv) (by simpa using hc)
          (fun t ht => hw t (by simp [ht]))
          (fun t ht => by have := hd t (by simp [ht]); simp only [List.length_cons] at this; simp only [St.on_cap]; omega)
          (fun i hi hi1 hi2 => by
            have := hr (i + 1) (by simpa using hi) (by simpa using hi1) (by simpa using hi2)
            simpa using this)
        refine ⟨s', ?_, h1, h2⟩
        show (get L t (-1) >>= _) s = _
        rw [bind_of_ok e, bind_of_ok e']; rfl

/-- C56: a call that returned `(v1, ..., vn)` converts to the tuple `(c1, ..., cn)`, where each
`ci` is what `vi` stands for: in order, for every `n` -/
theorem C56_order (L : Lua F) (s : St F) (rs : List (Val F)) (ts : List Ty) (cs : List (CVal F)) (size : Nat)
    (hl : rs.length = ts.length) (hcl : cs.length = ts.length) (hw : ∀ t ∈ ts, Widths t)
    (hm : s.stack.length + rs.length ≤ L.maxStack) (hd : ∀ t ∈ ts, s.stack.length + rs.length + depth t ≤ s.cap)
    (hr : ∀ (i : Nat) (h : i < ts.length) (h1 : i < rs.length) (h2 : i < cs.length), Repr L s.mem ts[i] rs[i] cs[i]) :
    ∃ s', convertTuple L ⟨rs.reverse, size⟩ ts s = .ok cs s' ∧ s'.stack = s.stack ∧ s'.mem = s.mem := by
  obtain ⟨s1, e1, h1, m1, c1, c1'⟩ := checkStack_ok L rs.reverse.length (s := s) rfl (by simpa using hm)
  obtain ⟨s2, e2, h2, m2, c2⟩ := pushes_ok rs.reverse h1 c1'
  rw [List.reverse_reverse] at h2
  obtain ⟨s3, e3, h3, m3⟩ := getResults_ok L ts rs s.stack cs s2 h2 hl hcl hw
    (fun t ht => by have := hd t ht; omega) (fun i h h1 h2 => by rw [m2, m1]; exact hr i h h1 h2)
  refine ⟨s3, ?_, h3, m3.trans (m2.trans m1)⟩
  unfold convertTuple
  have hp : pushAll L ⟨rs.reverse, size⟩ s = .ok () s2 := by
    unfold pushAll
    rw [bind_of_ok e1]; exact e2
  rw [if_neg (by simp [hl]), bind_of_ok hp]
  exact e3

example : ∃ s', convertTuple exLua ⟨[.int 7, .num 5, .bool true], 3⟩ [.bool, .float, .int ⟨32, true⟩] exSt
    = .ok [.bool true, .num 5, .int 7] s' ∧ s'.stack = [] := by
  obtain ⟨s', h, h', -⟩ := C56_order exLua exSt [.bool true, .num 5, .int 7] [.bool, .float, .int ⟨32, true⟩]
    [.bool true, .num 5, .int 7] 3 rfl rfl (by simp [Widths]) (by decide) (by simp [depth, exSt]) (by
      intro i h _ _
      match i, h with
      | 0, _ => exact ⟨true, rfl, rfl⟩
      | 1, _ => exact ⟨.inr 5, rfl, rfl⟩
      | 2, _ => exact ⟨7, .inl rfl, by simp [IntTy.InRange], rfl⟩)
  exact ⟨s', h, h'⟩

/-- C56: call and conversion together -/
theorem C56_call_order (L : Lua F) (s : St F) (f size : Nat) (args : List (Arg F)) (rs : List (Val F)) (m : Mem F)
    (last : Val F) (ts : List Ty) (cs : List (CVal F))
    (ha : L.apply s.mem f (argsVals args) = .results m rs) (hlast : rs.getLast? = some last) (hn : last ≠ .nil)
    (hm : s.stack.length + (argsVals args).length + 2 ≤ L.maxStack) (hm' : s.stack.length + rs.length ≤ L.maxStack)
    (hc : (∀ a ∈ args, (argVals a).length ≤ 1) ∨ s.stack.length + 1 + (argsVals args).length ≤ s.cap)
    (hl : rs.length = ts.length) (hcl : cs.length = ts.length) (hw : ∀ t ∈ ts, Widths t)
    (hd : ∀ t ∈ ts, s.stack.length + rs.length + depth t ≤ max s.cap (s.stack.length + rs.length))
    (hr : ∀ (i : Nat) (h : i < ts.length) (h1 : i < rs.length) (h2 : i < cs.length), Repr L m ts[i] rs[i] cs[i]) :
    ∃ res s1 s2, callResult L ⟨[.func f], size⟩ args s = .ok res s1 ∧ convertTuple L res ts s1 = .ok cs s2 ∧
      s2.stack = s.stack ∧ s2.mem = m := by
  obtain ⟨s1, e1, h1, m1, c1, c1'⟩ := C56_call L s f size args rs m last ha hlast hn hm hc
  obtain ⟨s2, e2, h2, m2⟩ := C56_order L s1 rs ts cs rs.length hl hcl hw (by rw [h1]; exact hm')
    (fun t ht => by have := hd t ht; rw [h1]; omega) (by rw [m1]; exact hr)
  exact ⟨_, s1, s2, e1, e2, h2.trans h1, m2.trans m1⟩

example : ∃ res s1 s2, callResult exLua ⟨[.func 1], 0⟩ [.num 5, .bool true] exSt = .ok res s1 ∧
    convertTuple exLua res [.bool, .float, .int ⟨32, true⟩] s1 = .ok [.bool true, .num 5, .int 7] s2 ∧ s2.stack = [] := by
  obtain ⟨res, s1, s2, h, h', h'', -⟩ := C56_call_order exLua exSt 1 0 [.num 5, .bool true] [.bool true, .num 5, .int 7] exMem
    (.int 7) [.bool, .float, .int ⟨32, true⟩] [.bool true, .num 5, .int 7] rfl rfl (by simp) (by decide) (by decide)
    (.inl (by simp [argVals])) rfl rfl (by simp [Widths]) (by simp [depth, exSt]) (by
      intro i h _ _
      match i, h with
      | 0, _ => exact ⟨true, rfl, rfl⟩
      | 1, _ => exact ⟨.inr 5, rfl, rfl⟩
      | 2, _ => exact ⟨7, .inl rfl, by simp [IntTy.InRange], rfl⟩)
  exact ⟨res, s1, s2, h, h', h''⟩

/-- C56: asking for a different number of values throws, and touches nothing -/
theorem C56_mismatch (L : Lua F) (s : St F) (r : Result F) :
    (∀ ts : List Ty, r.refs.length ≠ ts.length → convertTuple L r ts s = .throw s) ∧
    (∀ t, r.refs.length ≠ 1 → convert L r t s = .throw s) := by
  refine ⟨fun ts h => ?_, fun t h => ?_⟩
  · unfold convertTuple; rw [if_pos h]; rfl
  · unfold convert; rw [if_pos h]; rfl

/-- what a call with results `rs` ends with -/
theorem call_results (L : Lua F) (s : St F) (f size : Nat) (args : List (Arg F)) (rs : List (Val F)) (m : Mem F)
    (ha : L.apply s.mem f (argsVals args) = .results m rs)
    (hm : s.stack.length + (argsVals args).length + 2 ≤ L.maxStack) (hc : ∀ a ∈ args, (argVals a).length ≤ 1)
    (hnil : (rs.reverse ++ s.stack).headD s.base = .nil) :
    ∃ s', callResult L ⟨[.func f], size⟩ args s = .throw s' ∧ s'.stack = rs.reverse ++ s.stack := by
  obtain ⟨s1, e1, h1, m1, c1, -⟩ := checkStack_ok L 1 (s := s) rfl (by omega)
  obtain ⟨s2, e2, h2, m2, c2, -⟩ := pushLast_ok L ⟨[.func f], size⟩ (.func f) rfl h1 (by omega)
  obtain ⟨s3, e3, h3, m3, c3⟩ := pushArgs_ok L args h2 (by simp only [List.length_cons]; omega) (.inl hc)
  have hb : ∀ x : St F, x = s3 → x.base = s.base := by
    rintro x rfl
    -- nothing changes the slot below the stack
    have b1 : s1.base = s.base := by
      have : checkStack L 1 s = .ok () { s with cap := max s.cap (s.stack.length + 1) } := by
        unfold checkStack
        rw [bind_of_ok (a := true) (s' := { s with cap := max s.cap (s.stack.length + 1) })
          (by have : s.stack.length + 1 ≤ L.maxStack := by omega
              simp [checkstack, this])]
        rfl
      rw [this] at e1; cases e1; rfl
    have pushB : ∀ (v : Val F) (a b : St F), push v a = .ok () b → b.base = a.base := by
      intro v a b h; unfold push at h; split at h <;> cases h; rfl
    have checkB : ∀ (n : Nat) (a b : St F), checkStack L n a = .ok () b → b.base = a.base := by
      intro n a b h
      unfold checkStack checkstack at h
      obtain ⟨t, a1, h1, h2⟩ := bind_inv h
      try dsimp only at h1
      split at h1 <;> cases h1 <;> cases h2; rfl
    have pushesB : ∀ (vs : List (Val F)) (a b : St F), pushes vs a = .ok () b → b.base = a.base := by
      intro vs
      induction vs with
      | nil => intro a b h; cases h; rfl
      | cons v vs ih =>
        intro a b h
        obtain ⟨_, a1, h1, h2⟩ := bind_inv h
        rw [ih _ _ h2, pushB _ _ _ h1]
    have luaB : ∀ (x : Arg F) (n : Nat) (a b : St F), luaPush L x a = .ok n b → b.base = a.base := by
      intro x n a b h
      cases x with
      | arr xs =>
        rw [luaPush] at h
        obtain ⟨t, a1, h1, h2⟩ := bind_inv h
        have hb1 : a1.base = a.base := by
          unfold checkstack at h1; try dsimp only at h1
          split at h1 <;> cases h1 <;> rfl
        cases t with
        | true =>
          rw [if_pos rfl] at h2
          obtain ⟨_, a2, h3, h4⟩ := bind_inv h2
          cases h4
          rw [pushesB _ _ _ h3, hb1]
        | false => rw [if_neg (by simp)] at h2; cases h2
      | _ =>
        rw [luaPush] at h
        obtain ⟨_, a1, h1, h2⟩ := bind_inv h
        cases h2
        exact pushB _ _ _ h1
    have argsB : ∀ (xs : List (Arg F)) (n : Nat) (a b : St F), pushArgs L xs a = .ok n b → b.base = a.base := by
      intro xs
      induction xs with
      | nil => intro n a b h; cases h; rfl
      | cons x xs ih =>
        intro n a b h
        obtain ⟨_, a1, h1, h2⟩ := bind_inv h
        obtain ⟨k, a2, h3, h4⟩ := bind_inv h2
        obtain ⟨k', a3, h5, h6⟩ := bind_inv h4
        cases h6
        rw [ih _ _ _ h5, luaB _ _ _ _ h3, checkB _ _ _ h1]
    have lastB : s2.base = s1.base := by
      unfold pushLast at e2
      obtain ⟨_, a1, h1, h2⟩ := bind_inv e2
      rw [pushB _ _ _ h2, checkB _ _ _ h1]
    rw [argsB _ _ _ _ e3, lastB, b1]
  have ef : checkFunction s2 = .ok f s2 := by
    obtain ⟨a, ha, e⟩ | ⟨h, -⟩ := checkFunction_eq h2
    · cases ha; exact e
    · exact absurd rfl (h f)
  have ea : (s3.stack.take (argsVals args).length).reverse = argsVals args := by
    rw [h3, List.take_left' (by simp)]; simp
  have eb : s3.stack.drop ((argsVals args).length + 1) = s.stack := by
    rw [h3, List.drop_append, List.drop_eq_nil_of_le (by simp)]; simp
  have em : s3.mem = s.mem := m3.trans (m2.trans m1)
  obtain ⟨s4, es4⟩ : ∃ s4 : St F, s4 = { s3 with mem := m, stack := rs.reverse ++ s.stack, cap := max s3.cap (rs.reverse ++ s.stack).length } := ⟨_, rfl⟩
  have e4 : pcall (fun m as => L.apply m f as) (argsVals args).length s3 = .ok true s4 := by
    simp only [pcall, ea, eb, em, ha, es4]
  have h4 : s4.stack = rs.reverse ++ s.stack := by rw [es4]
  have hb4 : s4.base = s.base := by rw [es4]; exact hb s3 rfl
  have e5 : peek (-1) s4 = .ok .nil s4 := by
    cases hst : rs.reverse ++ s.stack with
    | nil =>
      rw [hst] at hnil h4
      have := peek_nil s4
      rw [← h4, St.on_self, hb4] at this
      rw [this]
      simp only [List.headD_nil] at hnil
      rw [hnil]
    | cons v l =>
      rw [hst] at hnil h4
      simp only [List.headD_cons] at hnil
      rw [hnil] at h4
      exact peek_eq h4
  refine ⟨s4, ?_, h4⟩
  unfold callResult
  rw [bind_of_ok (gettop_eq s), bind_of_ok e1, bind_of_ok e2, bind_of_ok ef, bind_of_ok e3, bind_of_ok e4, if_pos rfl,
    bind_of_ok e5]
  rfl

/-- C56 as stated: violated when the last of the values is nil: the call throws although it
returned -/
theorem C56_last_nil_fails (L : Lua F) (s : St F) (f size : Nat) (args : List (Arg F)) (rs : List (Val F)) (m : Mem F)
    (ha : L.apply s.mem f (argsVals args) = .results m (rs ++ [.nil]))
    (hm : s.stack.length + (argsVals args).length + 2 ≤ L.maxStack) (hc : ∀ a ∈ args, (argVals a).length ≤ 1) :
    ∃ s', callResult L ⟨[.func f], size⟩ args s = .throw s' := by
  obtain ⟨s', h, -⟩ := call_results L s f size args (rs ++ [.nil]) m ha hm hc (by simp)
  exact ⟨s', h⟩

/-- C56 as stated: violated for functions that return nothing: with nothing on the stack the call
looks at the slot below it, which Lua keeps nil in the main program, and throws -/
theorem C56_no_results_fails (L : Lua F) (s : St F) (f size : Nat) (args : List (Arg F)) (m : Mem F)
    (hs : s.stack = []) (hb : s.base = .nil) (ha : L.apply s.mem f (argsVals args) = .results m [])
    (hm : (argsVals args).length + 2 ≤ L.maxStack) (hc : ∀ a ∈ args, (argVals a).length ≤ 1) :
    ∃ s', callResult L ⟨[.func f], size⟩ args s = .throw s' := by
  obtain ⟨s', h, -⟩ := call_results L s f size args [] m ha (by rw [hs]; simpa using hm) hc (by simp [hs, hb])
  exact ⟨s', h⟩

/-- the example function swaps its arguments and adds a 7 -/
example : (match callResult exLua ⟨[.func 1], 0⟩ [.num 5, .bool true] exSt with
    | .ok r s => (match convertTuple exLua r [.bool, .float, .int ⟨32, true⟩] s with
      | .ok [.bool true, .num 5, .int 7] _ => true
      | _ => false)
    | _ => false) = true := by decide +kernel

/-! ## C57 -/

/-- C57: a value that stands for a C++ value of type `t` converts to it, for every type nested to
any depth and tables of any length -/
theorem C57_get (L : Lua F) (t : Ty) (s : St F) (v : Val F) (rest : List (Val F)) (c : CVal F) (hw : Widths t)
    (h : s.stack = v :: rest) (hc : s.stack.length + depth t ≤ s.cap) (hr : Repr L s.mem t v c) :
    get L t (-1) s = .ok c { s with stack := rest } := by
  have := get_repr L t s v rest c hw (by rw [h] at hc; simpa using hc) hr
  rw [← h, St.on_self] at this
  exact this

/-- C57: for types without integers, strings and matrices the conversion succeeds exactly on the
values that stand for something -/
theorem C57_get_iff_partial (L : Lua F) (t : Ty) (ht : Strict t) (s : St F) (v : Val F) (rest : List (Val F)) (c : CVal F)
    (h : s.stack = v :: rest) (hc : s.stack.length + depth t ≤ s.cap) :
    (∃ s', get L t (-1) s = .ok c s') ↔ Repr L s.mem t v c := by
  have hc' : rest.length + 1 + depth t ≤ s.cap := by rw [h] at hc; simpa using hc
  have hw : Widths t := by
    clear hc hc'
    induction t with
    | int t => exact ht.elim
    | vec t ih => exact ih ht
    | arr t n ih => exact ih ht
    | mat t m n => exact ht.elim
    | _ => trivial
  constructor
  · rintro ⟨s', e⟩
    refine get_strict L t ht s v rest c s' hc' ?_
    rw [← h, St.on_self]; exact e
  · intro hr
    exact ⟨_, C57_get L t s v rest c hw h hc hr⟩

/-- the table `{ 3, 4 }` converts to no vector but `{ 3, 4 }` -/
example (c : CVal Int) : (∃ s', get exLua (.vec .float) (-1) (exOn (.table 0)) = .ok c s') ↔
    Repr exLua exMem (.vec .float) (.table 0) c :=
  C57_get_iff_partial exLua (.vec .float) (by simp [Strict]) (exOn (.table 0)) (.table 0) [] c rfl (by simp [depth, exOn])

/-- C57: reading a table of another length into a fixed-size array or matrix throws, and so does
reading something that is not a table; nothing is removed -/
theorem C57_wrong_length (L : Lua F) (t : Ty) (s : St F) (v : Val F) (rest : List (Val F)) (N M : Nat)
    (h : s.stack = v :: rest) :
    (∀ a, v = .table a → (s.mem.heap a).len ≠ N → get L (.arr t N) (-1) s = .throw s ∧ get L (.mat t N M) (-1) s = .throw s) ∧
    ((∀ a, v ≠ .table a) → get L (.arr t N) (-1) s = .throw s ∧ get L (.vec t) (-1) s = .throw s ∧
      get L (.mat t N M) (-1) s = .throw s) := by
  have hct := checkIsTable_top s v rest
  rw [← h, St.on_self] at hct
  refine ⟨?_, fun hv => ?_⟩
  · rintro a rfl hl
    obtain ⟨_, -, e⟩ | ⟨hv, -⟩ := hct
    · constructor <;> rw [get, bind_of_ok e, bind_of_ok (rawlenTop_eq' h), if_pos (by simpa [rawlen] using hl)] <;> rfl
    · exact absurd rfl (hv a)
  · obtain ⟨a, rfl, -⟩ | ⟨-, e⟩ := hct
    · exact absurd rfl (hv a)
    · refine ⟨?_, ?_, ?_⟩ <;> rw [get, bind_of_throw e]

example : get exLua (.arr .float 3) (-1) (exOn (.table 0)) = .throw (exOn (.table 0)) ∧
    get exLua (.vec .float) (-1) (exOn (.int 0)) = .throw (exOn (.int 0)) :=
  ⟨((C57_wrong_length exLua .float (exOn (.table 0)) (.table 0) [] 3 0 rfl).1 0 rfl (by decide)).1,
    ((C57_wrong_length exLua .float (exOn (.int 0)) (.int 0) [] 3 0 rfl).2 (by simp)).2.1⟩

/-- C57: scalars of every kind come back as they were pushed: `int`, `long long`, `size_t`,
`double`, `bool`, and strings without a zero byte -/
theorem C57_push_get (L : Lua F) (s : St F) (hc : s.stack.length < s.cap) :
    (∀ (t : IntTy) (i : Int), (t = ⟨32, true⟩ ∨ t = ⟨64, true⟩ ∨ t = ⟨64, false⟩) → t.InRange i →
      (do let _ ← luaPush L (.int i); get L (.int t) (-1)) s = .ok (.int i) s) ∧
    (∀ x, (do let _ ← luaPush L (.num x); get L .float (-1)) s = .ok (.num x) s) ∧
    (∀ b, (do let _ ← luaPush L (.bool b); get L .bool (-1)) s = .ok (.bool b) s) ∧
    (∀ b, (0 : UInt8) ∉ b → (do let _ ← luaPush L (.str b); get L .str (-1)) s = .ok (.str b) s) := by
  have hp : ∀ v, push v s = .ok () (s.on (v :: s.stack)) := fun v => push_eq s v s.stack hc
  refine ⟨fun t i ht hi => ?_, fun x => ?_, fun b => ?_, fun b hb => ?_⟩
  · have e : luaPush L (.int i) s = .ok 1 (s.on (.int (luaInteger.wrap i) :: s.stack)) := by
      rw [luaPush, bind_of_ok (hp _)]; rfl
    rw [bind_of_ok e, get, bind_of_ok (peek_top s _ _)]
    simp only [toNum]
    rw [bind_of_ok (remove_top s _ _)]
    have : t.wrap (luaInteger.wrap i) = i := by
      rcases ht with rfl | rfl | rfl
      · have hi' : luaInteger.InRange i := by
          simp only [IntTy.InRange, luaInteger, if_true] at hi ⊢; omega
        rw [luaInteger.wrap_of_inRange (by decide) i hi', IntTy.wrap_of_inRange _ (by decide) i hi]
      · have hi' : luaInteger.InRange i := hi
        rw [luaInteger.wrap_of_inRange (by decide) i hi', IntTy.wrap_of_inRange _ (by decide) i hi]
      · simp only [IntTy.InRange, Bool.false_eq_true, if_false] at hi
        show Int.bmod i 18446744073709551616 % 18446744073709551616 = i
        have hi' : 0 ≤ i ∧ i < 18446744073709551616 := hi
        have e : Int.bmod i 18446744073709551616 % 18446744073709551616 = i % 18446744073709551616 := Int.bmod_emod
        rw [e]; omega
    simp only [toInteger, toNum, this]
    rfl
  · have e : luaPush L (.num x) s = .ok 1 (s.on (.num x :: s.stack)) := by
      rw [luaPush, bind_of_ok (hp _)]; rfl
    rw [bind_of_ok e, get_repr L .float s _ _ (.num x) trivial (by simp only [depth]; omega) ⟨.inr x, rfl, rfl⟩]; rfl
  · have e : luaPush L (.bool b) s = .ok 1 (s.on (.bool b :: s.stack)) := by
      rw [luaPush, bind_of_ok (hp _)]; rfl
    rw [bind_of_ok e, get_repr L .bool s _ _ (.bool b) trivial (by simp only [depth]; omega) ⟨b, rfl, rfl⟩]; rfl
  · have e : luaPush L (.str b) s = .ok 1 (s.on (.str b :: s.stack)) := by
      rw [luaPush, bind_of_ok (hp _)]; rfl
    rw [bind_of_ok e, get_repr L .str s _ _ (.str b) trivial (by simp only [depth]; omega) ⟨b, rfl, hb, rfl⟩]; rfl

example : (do let _ ← luaPush exLua (.int (-5)); get exLua (.int ⟨32, true⟩) (-1)) exSt = .ok (.int (-5)) exSt :=
  (C57_push_get exLua exSt (by decide)).1 ⟨32, true⟩ (-5) (.inl rfl) (by simp [IntTy.InRange])

/-- C57 as stated: violated for strings with a zero byte, which come back cut there -/
theorem C57_string_fails (L : Lua F) (s : St F) (hc : s.stack.length < s.cap) (b c : Bytes) (hb : (0 : UInt8) ∉ b) :
    (do let _ ← luaPush L (.str (b ++ 0 :: c)); get L .str (-1)) s = .ok (.str b) s := by
  have e : luaPush L (.str (b ++ 0 :: c)) s = .ok 1 (s.on (.str (b ++ 0 :: c) :: s.stack)) := by
    have hp : push (.str (b ++ 0 :: c)) s = .ok () (s.on (.str (b ++ 0 :: c) :: s.stack)) := push_eq s _ s.stack hc
    rw [luaPush, bind_of_ok hp]; rfl
  rw [bind_of_ok e, get, bind_of_ok (peek_top s _ _)]
  simp only [toStr]
  rw [bind_of_ok (remove_top s _ _)]
  have : cstr (b ++ 0 :: c) = b := by
    have := cstr_of_noZero b hb
    unfold cstr at this ⊢
    rw [List.takeWhile_append_of_pos (fun x hx => by
      simp only [bne_iff_ne, ne_eq]; rintro rfl; exact hb hx)]
    simp
  rw [this]; rfl

example : (do let _ ← luaPush exLua (.str [65, 0, 66]); get exLua .str (-1)) exSt = .ok (.str [65]) exSt :=
  C57_string_fails exLua exSt (by decide) [65] [66] (by decide)

/-- C57 as stated: violated for numbers that are not integers, which convert to zero instead of
being refused -/
theorem C57_fraction_fails (L : Lua F) (s : St F) (x : F) (rest : List (Val F)) (t : IntTy) (h : s.stack = .num x :: rest)
    (hx : L.floatToInt x = none) : get L (.int t) (-1) s = .ok (.int 0) { s with stack := rest } := by
  obtain ⟨m, st, cap, base⟩ := s
  subst h
  have e := remove_top ⟨m, .num x :: rest, cap, base⟩ (.num x) rest
  rw [get, bind_of_ok (peek_eq rfl)]
  simp only [toNum, toInteger, hx, Option.getD_none]
  have hw : t.wrap 0 = 0 := by unfold IntTy.wrap; split <;> simp
  rw [hw]
  exact bind_of_ok e

/-- where the odd numbers stand for halves -/
example : get { exLua with floatToInt := fun x => if x % 2 = 0 then some (x / 2) else none } (.int ⟨32, true⟩) (-1)
    (exOn (.num 7)) = .ok (.int 0) exSt :=
  C57_fraction_fails _ (exOn (.num 7)) 7 [] ⟨32, true⟩ rfl rfl

/-- C57 as stated: violated for matrices: rows longer than the matrix are accepted and cut -/
theorem C57_matrix_fails (L : Lua F) (s : St F) (rest : List (Val F)) (a b : Nat) (x : F) (h : s.stack = .table a :: rest)
    (hc : s.stack.length + 2 ≤ s.cap) (ha : (s.mem.heap a).len = 1) (hb : (s.mem.heap a).geti 1 = .table b)
    (hx : (s.mem.heap b).geti 1 = .num x) :
    get L (.mat .float 1 1) (-1) s = .ok (.list [.list [.num x]]) { s with stack := rest } := by
  have hl : rest.length + 1 + 2 ≤ s.cap := by rw [h] at hc; simpa using hc
  have key : get L (.mat .float 1 1) (-1) (s.on (.table a :: rest)) = .ok (.list [.list [.num x]]) (s.on rest) := by
    rw [get]
    obtain ⟨_, -, e⟩ | ⟨hn, -⟩ := checkIsTable_top s (.table a) rest
    · rw [bind_of_ok e, bind_of_ok (rawlenTop_eq s _ _), if_neg (by simpa [rawlen] using ha)]
      show (collect _ 1 [CVal.list [CVal.num x]].length >>= _) _ = _
      rw [bind_of_ok (collect_ok (α := CVal F) (s := s.on (.table a :: rest)) [CVal.list [.num x]] 1 fun i hi => ?_),
        bind_of_ok (remove_top s _ rest)]
      · rfl
      · obtain rfl : i = 0 := by simpa using hi
        rw [bind_of_ok (rawgeti_eq s a rest _ (by omega))]
        have e1 : (s.mem.heap a).geti (1 + ((0 : Nat) : Int)) = .table b := by simpa using hb
        rw [e1]
        show (collect _ 1 [CVal.num x].length >>= _) _ = _
        rw [bind_of_ok (collect_ok (α := CVal F) (s := s.on (.table b :: .table a :: rest)) [CVal.num x] 1 fun j hj => ?_),
          bind_of_ok (remove_top s _ _)]
        · rfl
        · obtain rfl : j = 0 := by simpa using hj
          rw [bind_of_ok (rawgeti_eq s b _ _ (by simp; omega))]
          refine get_repr L .float s _ _ (.num x) trivial (by simp [depth]; omega) ⟨.inr x, ?_, rfl⟩
          have e2 : (s.mem.heap b).geti (1 + ((0 : Nat) : Int)) = .num x := by simpa using hx
          rw [e2]; rfl
    · exact absurd rfl (hn a)
  rw [← h, St.on_self] at key
  exact key

/-- the second number of the row is dropped without a word -/
example : (exRow.mem.heap 1).len = 2 ∧
    get exLua (.mat .float 1 1) (-1) exRow = .ok (.list [.list [.num 11]]) { exRow with stack := [.nil] } :=
  ⟨rfl, C57_matrix_fails exLua exRow [.nil] 0 1 11 rfl (by decide) rfl rfl rfl⟩

/-- C57: a row that is not a table is undefined rather than refused -/
theorem C57_matrix_row_fails (L : Lua F) (s : St F) (rest : List (Val F)) (a K N : Nat) (t : Ty) (v : Val F)
    (h : s.stack = .table a :: rest) (hN : 0 < N) (ha : (s.mem.heap a).len = K + 1)
    (hv : (s.mem.heap a).geti 1 = v) (hn : ∀ b, v ≠ .table b) : get L (.mat t (K + 1) N) (-1) s = .ub := by
  have key : get L (.mat t (K + 1) N) (-1) (s.on (.table a :: rest)) = .ub := by
    rw [get]
    obtain ⟨_, -, e⟩ | ⟨hn, -⟩ := checkIsTable_top s (.table a) rest
    · rw [bind_of_ok e, bind_of_ok (rawlenTop_eq s _ _), if_neg (by simpa [rawlen] using ha), bind_of_ub]
      show ((_ : M F (CVal F)) >>= _) _ = _
      rw [bind_of_ub]
      show ((rawgeti 1 : M F Unit) >>= _) _ = _
      by_cases hf : rest.length + 1 < s.cap
      · rw [bind_of_ok (rawgeti_eq s a rest _ hf), hv, bind_of_ub]
        obtain ⟨N, rfl⟩ : ∃ k, N = k + 1 := ⟨N - 1, by omega⟩
        show ((_ : M F (CVal F)) >>= _) _ = _
        rw [bind_of_ub]
        show ((rawgeti 1 : M F Unit) >>= _) _ = _
        rw [bind_of_ub]
        unfold rawgeti
        cases v with
        | table b => exact absurd rfl (hn b)
        | _ => rfl
      · rw [bind_of_ub (rawgeti_full s a rest _ hf)]
    · exact absurd rfl (hn a)
  rw [← h, St.on_self] at key
  exact key

/-- the table `{ 3, 4 }` read as a matrix of two rows -/
example : get exLua (.mat .float 2 2) (-1) (exOn (.table 0)) = .ub :=
  C57_matrix_row_fails exLua (exOn (.table 0)) [] 0 1 2 .float (.int 3) rfl (by decide) rfl rfl (by simp)

/-- C57: an array argument becomes its elements, in order; it is not a table -/
theorem C57_array_argument (L : Lua F) (s : St F) (xs : List F) (n : Nat) (s' : St F)
    (h : luaPush L (.arr xs) s = .ok n s') : n = xs.length ∧ s'.stack = (xs.map Val.num).reverse ++ s.stack := by
  have := luaPush_post L (.arr xs) (s := s) rfl
  rw [h] at this
  obtain ⟨h1, -, h2⟩ := this
  exact ⟨by simpa [argVals] using h2, by simpa [argVals] using h1⟩

example : ∃ n s', luaPush exLua (.arr [1, 2, 3]) exSt = .ok n s' ∧ s'.stack = [.num 3, .num 2, .num 1] := by
  have h : ∃ n s', luaPush exLua (.arr [1, 2, 3]) exSt = .ok n s' := ⟨_, _, rfl⟩
  obtain ⟨n, s', h⟩ := h
  exact ⟨n, s', h, (C57_array_argument exLua exSt [1, 2, 3] n s' h).2⟩

/-- C57: an array of 20 or more doubles given to a function in a fresh state (20 slots) overflows
the stack: the caller asks for one slot and `lua_push` for `N - 1`, counted from the same place -/
theorem C57_array_argument_fails (L : Lua F) (s : St F) (xs : List F) (f size : Nat) (hs : s.stack = []) (hc : s.cap = 20)
    (hx : 20 ≤ xs.length) (hm : xs.length + 2 ≤ L.maxStack) : callResult L ⟨[.func f], size⟩ [.arr xs] s = .ub := by
  have pushesUb : ∀ (vs : List (Val F)) (s : St F), s.stack.length ≤ s.cap → s.cap < s.stack.length + vs.length →
      pushes vs s = .ub := by
    intro vs
    induction vs with
    | nil => intro s h1 h2; simp at h2; omega
    | cons v vs ih =>
      intro s h1 h2
      simp only [List.length_cons] at h2
      by_cases hl : s.stack.length < s.cap
      · show (push v >>= _) s = _
        rw [bind_of_ok (a := ()) (s' := { s with stack := v :: s.stack }) (by simp [push, hl])]
        exact ih _ (by simp only [List.length_cons]; omega) (by simp only [List.length_cons]; omega)
      · show (push v >>= _) s = _
        rw [bind_of_ub (by simp [push, hl])]
  have chk : ∀ (n : Nat) (s : St F), s.stack.length + n ≤ L.maxStack →
      checkStack L n s = .ok () { s with cap := max s.cap (s.stack.length + n) } := by
    intro n s h
    unfold checkStack
    rw [bind_of_ok (a := true) (s' := { s with cap := max s.cap (s.stack.length + n) }) (by simp [checkstack, h])]
    rfl
  obtain ⟨m, st, cap, base⟩ := s
  dsimp only at hs hc
  subst hs hc
  unfold callResult
  rw [bind_of_ok (gettop_eq _), bind_of_ok (chk 1 _ (by simp only [List.length_nil]; omega))]
  have e2 : pushLast L ⟨[.func f], size⟩ (⟨m, [], 20, base⟩ : St F) = .ok () ⟨m, [.func f], 20, base⟩ := by
    unfold pushLast
    rw [bind_of_ok (chk 1 _ (by simp only [List.length_nil]; omega))]
    rfl
  have e3 : checkFunction (⟨m, [.func f], 20, base⟩ : St F) = .ok f ⟨m, [.func f], 20, base⟩ := rfl
  rw [bind_of_ok (a := ()) (s' := ⟨m, [.func f], 20, base⟩) (by simpa using e2), bind_of_ok e3, bind_of_ub]
  show ((_ : M F Unit) >>= _) _ = _
  rw [bind_of_ok (chk 1 _ (by simp only [List.length_cons, List.length_nil]; omega)), bind_of_ub]
  rw [luaPush, bind_of_ok (a := true) (s' := ⟨m, [.func f], max 20 (1 + (xs.length - 1)), base⟩) (by
    have : 1 + (xs.length - 1) ≤ L.maxStack := by omega
    simp [checkstack, this]), if_pos rfl, bind_of_ub]
  exact pushesUb _ _ (by simp only [List.length_cons, List.length_nil]; omega)
    (by simp only [List.length_cons, List.length_nil, List.length_map]; omega)

/-- C57: with an index other than the top, a vector is read from the top of the stack all the
same -/
theorem C57_index_fails : ∃ (s s' : St Int), s.stack = [.table 1, .table 0] ∧
    Repr exLua s.mem (.vec .float) (.table 0) (.list [.num 1]) ∧
    get exLua (.vec .float) (-2) s = .ok (.list [.num 2, .num 2]) s' :=
  ⟨⟨⟨fun a => ⟨fun _ => .num (a + 1), fun _ => .nil, a + 1⟩, fun _ => .nil⟩, [.table 1, .table 0], 20, .nil⟩, _, rfl,
    ⟨0, [.num 1], rfl, rfl, rfl, fun i h => by
      obtain rfl : i = 0 := by simpa using h
      exact ⟨.inr 1, rfl, rfl⟩⟩, rfl⟩

/-- a table of two rows of two numbers is a matrix -/
example : (match get exLua (.mat .float 2 2) (-1)
      ⟨⟨fun a => if a = 0 then ⟨fun i => .table i.toNat, fun _ => .nil, 2⟩
        else ⟨fun i => .num (10 * a + i), fun _ => .nil, 2⟩, fun _ => .nil⟩, [.table 0, .nil], 20, .nil⟩ with
    | .ok (.list [.list [.num 11, .num 12], .list [.num 21, .num 22]]) s => decide (s.stack = [.nil])
    | _ => false) = true := by decide +kernel

/-! ## C73 -/

/-- C73: a global that is not there reads as the default; one that is there is converted and the
default ignored -/
theorem C73_default (L : Lua F) (s : St F) (key : Bytes) (t : Ty) (d : CVal F) (hk : (0 : UInt8) ∉ key)
    (hc : s.stack.length < s.cap) :
    (s.mem.globals key = .nil →
      (do let r ← global key; asDefault L r t d) s = .ok d s) ∧
    (∀ c, Widths t → s.mem.globals key ≠ .nil → s.stack.length + 1 + depth t ≤ s.cap → s.stack.length + 1 ≤ L.maxStack →
      Repr L s.mem t (s.mem.globals key) c →
      ∃ s', (do let r ← global key; asDefault L r t d) s = .ok c s' ∧ s'.stack = s.stack) := by
  have eg : global key s = .ok ⟨[s.mem.globals key], rawlen s.mem (s.mem.globals key)⟩ s := by
    unfold global
    rw [bind_of_ok (show getGlobal (cstr key) s = .ok (s.mem.globals (cstr key)) s from rfl), cstr_of_noZero key hk,
      bind_of_ok (show push (s.mem.globals key) s = _ from push_eq s _ s.stack hc), bind_of_ok (rawlenTop_eq s _ _), bind_of_ok (makeRef_eq rfl)]
    rfl
  refine ⟨fun h => ?_, fun c hw hn hd hm hr => ?_⟩
  · rw [bind_of_ok eg, h]; rfl
  · rw [bind_of_ok eg]
    obtain ⟨s1, e1, h1, m1, c1, -⟩ := pushLast_ok L ⟨[s.mem.globals key], rawlen s.mem (s.mem.globals key)⟩
      (s.mem.globals key) rfl (s := s) rfl hm
    have e2 := C57_get L t s1 (s.mem.globals key) s.stack c hw h1 (by rw [h1]; simp only [List.length_cons]; omega)
      (by rw [m1]; exact hr)
    refine ⟨{ s1 with stack := s.stack }, ?_, rfl⟩
    · unfold asDefault
      rw [if_neg (by
        simp only [Result.empty, List.all_cons, List.all_nil, Bool.and_true]
        cases hv : s.mem.globals key with
        | nil => exact absurd hv hn
        | _ => simp)]
      unfold convert
      rw [if_neg (by simp), bind_of_ok e1]
      exact e2

/-- **C73** A result of several values, or of none, read as one value with a default is the default exactly if there is nothing but nil in
it; with any value in it, wherever it stands, reading throws, and the stack is as before. -/
theorem C73_several (L : Lua F) (r : Result F) (s : St F) (t : Ty) (d : CVal F) (hr : r.refs.length ≠ 1) :
    ((∀ v ∈ r.refs, v = .nil) → asDefault L r t d s = .ok d s) ∧ ((∃ v ∈ r.refs, v ≠ .nil) → asDefault L r t d s = .throw s) := by
  have he : r.empty = true ↔ ∀ v ∈ r.refs, v = .nil := by
    rw [Result.empty, List.all_eq_true]
    refine forall₂_congr fun v _ => ?_
    cases v <;> simp
  refine ⟨fun h => ?_, fun ⟨v, hv, hn⟩ => ?_⟩
  · rw [asDefault, if_pos (he.2 h)]; rfl
  · rw [asDefault, if_neg fun h => hn (he.1 h v hv), convert, if_pos hr]; rfl

example (L : Lua Int) (s : St Int) : asDefault L ⟨[.nil, .nil], 2⟩ .float (.num 9) s = .ok (.num 9) s ∧
    asDefault L ⟨[.nil, .bool true], 2⟩ .float (.num 9) s = .throw s :=
  ⟨(C73_several L ⟨[.nil, .nil], 2⟩ s .float (.num 9) (by simp)).1 (by simp),
    (C73_several L ⟨[.nil, .bool true], 2⟩ s .float (.num 9) (by simp)).2 ⟨.bool true, by simp, by simp⟩⟩

/-- C73: without a default, a value that is not there throws -/
theorem C73_missing (L : Lua F) (s : St F) (key : Bytes) (t : Ty) (hk : (0 : UInt8) ∉ key) (hc : s.stack.length < s.cap)
    (h : s.mem.globals key = .nil) : tryAccessAs L key t s = .throw s := by
  have eg : global key s = .ok ⟨[s.mem.globals key], rawlen s.mem (s.mem.globals key)⟩ s := by
    unfold global
    rw [bind_of_ok (show getGlobal (cstr key) s = .ok (s.mem.globals (cstr key)) s from rfl), cstr_of_noZero key hk,
      bind_of_ok (show push (s.mem.globals key) s = _ from push_eq s _ s.stack hc), bind_of_ok (rawlenTop_eq s _ _), bind_of_ok (makeRef_eq rfl)]
    rfl
  unfold tryAccessAs
  rw [bind_of_ok eg, h]; rfl

example : (match (do let r ← global [70]; asDefault exLua r .float (.num 9) : M Int (CVal Int)) exSt with
    | .ok (.num 9) _ => true | _ => false) = true := by decide +kernel

end Verif.LuaStack
