import Verif.LuaStack.Lemmas

/-! # What each operation does to the stack -/

namespace Verif.LuaStack

variable {F : Type}

/-- the values at the bottom of the stack are still there -/
def Above (l : List (Val F)) (s : St F) : Prop := ∃ l', s.stack = l' ++ l

theorem above_self {l : List (Val F)} {s : St F} (h : s.stack = l) : Above l s := ⟨[], by simpa using h⟩

theorem above_cons {l : List (Val F)} {v : Val F} {s : St F} (h : Above (v :: l) s) : Above l s := by
  obtain ⟨l', h⟩ := h
  exact ⟨l' ++ [v], by simp [h]⟩

theorem above_append {l l1 : List (Val F)} {s : St F} (h : Above (l1 ++ l) s) : Above l s := by
  obtain ⟨l', h⟩ := h
  exact ⟨l' ++ l1, by simp [h]⟩

theorem push_post {s : St F} {l : List (Val F)} (h : s.stack = l) (v : Val F) :
    Post (push v s) (fun _ s' => s'.stack = v :: l ∧ s'.mem = s.mem) (fun _ => False) True := by
  unfold push
  split
  · exact ⟨by simp [h], rfl⟩
  · trivial

theorem peek_post {s : St F} (i : Int) : Post (peek i s) (fun _ s' => s' = s) (fun _ => False) True := by
  unfold peek
  split
  · split
    · exact rfl
    · trivial
  · split
    · exact rfl
    · trivial

theorem peek_eq {s : St F} {v : Val F} {l : List (Val F)} (h : s.stack = v :: l) : peek (-1) s = .ok v s := by
  have := peek_top s v l
  rwa [← h, St.on_self] at this

theorem checkStack_post (L : Lua F) (n : Nat) {s : St F} {l : List (Val F)} (h : s.stack = l) :
    Post (checkStack L n s) (fun _ s' => s'.stack = l ∧ s'.mem = s.mem ∧ s.cap ≤ s'.cap ∧ l.length + n ≤ s'.cap)
      (fun s' => s'.stack = l) False := by
  unfold checkStack
  by_cases hm : s.stack.length + n ≤ L.maxStack
  · rw [bind_of_ok (a := true) (s' := { s with cap := max s.cap (s.stack.length + n) }) (by simp [checkstack, hm])]
    exact ⟨h, rfl, Nat.le_max_left _ _, by rw [← h]; exact Nat.le_max_right _ _⟩
  · rw [bind_of_ok (a := false) (s' := s) (by simp [checkstack, hm])]
    exact h

/-- with room for `n` more, `check_stack` succeeds -/
theorem checkStack_ok (L : Lua F) (n : Nat) {s : St F} {l : List (Val F)} (h : s.stack = l)
    (hm : l.length + n ≤ L.maxStack) :
    ∃ s', checkStack L n s = .ok () s' ∧ s'.stack = l ∧ s'.mem = s.mem ∧ s.cap ≤ s'.cap ∧ l.length + n ≤ s'.cap := by
  refine ⟨{ s with cap := max s.cap (s.stack.length + n) }, ?_, h, rfl, Nat.le_max_left _ _, ?_⟩
  · unfold checkStack
    rw [bind_of_ok (a := true) (s' := { s with cap := max s.cap (s.stack.length + n) }) (by rw [← h] at hm; simp [checkstack, hm])]
    rfl
  · rw [← h]; exact Nat.le_max_right _ _

theorem push_ok {s : St F} {l : List (Val F)} (h : s.stack = l) (v : Val F) (hc : l.length < s.cap) :
    ∃ s', push v s = .ok () s' ∧ s'.stack = v :: l ∧ s'.mem = s.mem ∧ s'.cap = s.cap :=
  ⟨{ s with stack := v :: s.stack }, by rw [← h] at hc; simp [push, hc], by simp [h], rfl, rfl⟩

theorem pushLast_post (L : Lua F) (r : Result F) {s : St F} {l : List (Val F)} (h : s.stack = l) :
    Post (pushLast L r s) (fun _ s' => ∃ v, r.refs.getLast? = some v ∧ s'.stack = v :: l ∧ s'.mem = s.mem)
      (fun s' => s'.stack = l) True := by
  unfold pushLast
  refine Post.bind ((checkStack_post L 1 h).mono (fun _ _ h => h) (fun _ h => h) (fun h => h.elim)) ?_
  rintro - s' ⟨h1, h2, -⟩
  cases hv : r.refs.getLast? with
  | none => trivial
  | some v =>
    exact (push_post h1 v).mono (fun _ s'' h => ⟨v, rfl, h.1, h.2.trans h2⟩) (fun _ h => h.elim) (fun _ => trivial)

theorem pushLast_ok (L : Lua F) (r : Result F) (v : Val F) (hv : r.refs.getLast? = some v) {s : St F}
    {l : List (Val F)} (h : s.stack = l) (hm : l.length + 1 ≤ L.maxStack) :
    ∃ s', pushLast L r s = .ok () s' ∧ s'.stack = v :: l ∧ s'.mem = s.mem ∧ s.cap ≤ s'.cap ∧ l.length + 1 ≤ s'.cap := by
  obtain ⟨s1, e1, h1, m1, c1, c1'⟩ := checkStack_ok L 1 h hm
  obtain ⟨s2, e2, h2, m2, c2⟩ := push_ok h1 v (by omega)
  refine ⟨s2, ?_, h2, m2.trans m1, by omega, by omega⟩
  unfold pushLast
  rw [bind_of_ok e1, hv]
  exact e2

theorem pushes_post (vs : List (Val F)) : ∀ {s : St F} {l : List (Val F)}, s.stack = l →
    Post (pushes vs s) (fun _ s' => s'.stack = vs.reverse ++ l ∧ s'.mem = s.mem) (fun _ => False) True := by
  induction vs with
  | nil => intro s l h; exact ⟨by simpa using h, rfl⟩
  | cons v vs ih =>
    intro s l h
    refine Post.bind (push_post h v) ?_
    rintro - s' ⟨h1, h2⟩
    exact (ih h1).mono (fun _ s'' h => ⟨by simp [h.1], h.2.trans h2⟩) (fun _ h => h) (fun _ => trivial)

theorem pushes_ok (vs : List (Val F)) : ∀ {s : St F} {l : List (Val F)}, s.stack = l → l.length + vs.length ≤ s.cap →
    ∃ s', pushes vs s = .ok () s' ∧ s'.stack = vs.reverse ++ l ∧ s'.mem = s.mem ∧ s'.cap = s.cap := by
  induction vs with
  | nil => intro s l h _; exact ⟨s, rfl, by simpa using h, rfl, rfl⟩
  | cons v vs ih =>
    intro s l h hc
    simp only [List.length_cons] at hc
    obtain ⟨s1, e1, h1, m1, c1⟩ := push_ok h v (by omega)
    obtain ⟨s2, e2, h2, m2, c2⟩ := ih h1 (by simp; omega)
    refine ⟨s2, ?_, by simp [h2], m2.trans m1, c2.trans c1⟩
    show (push v >>= _) s = _
    rw [bind_of_ok e1]; exact e2

theorem get_post' (L : Lua F) (t : Ty) {s : St F} {v : Val F} {rest : List (Val F)} (h : s.stack = v :: rest) :
    Post (get L t (-1) s) (fun _ s' => s'.stack = rest ∧ s'.mem = s.mem) (Above (v :: rest)) True := by
  have := get_post L t s v rest
  rw [← h, St.on_self] at this
  refine this.mono ?_ ?_ (fun _ => trivial)
  · rintro c s' rfl; exact ⟨rfl, rfl⟩
  · rintro s' ⟨l, -, rfl⟩; exact ⟨l, by simp [h]⟩

theorem getResults_post (L : Lua F) (ts : List Ty) : ∀ {s : St F} {vs rest : List (Val F)}, s.stack = vs ++ rest →
    vs.length = ts.length →
    Post (getResults L ts s) (fun _ s' => s'.stack = rest ∧ s'.mem = s.mem) (Above rest) True := by
  induction ts with
  | nil =>
    intro s vs rest h hl
    obtain rfl : vs = [] := by simpa using hl
    exact ⟨by simpa using h, rfl⟩
  | cons t ts ih =>
    intro s vs rest h hl
    obtain ⟨v, vs, rfl⟩ : ∃ v vs', vs = v :: vs' := by
      cases vs with
      | nil => simp at hl
      | cons v vs => exact ⟨v, vs, rfl⟩
    refine Post.bind ((get_post' L t (by simpa using h)).mono (fun _ _ h => h)
      (fun s' h => above_append (above_cons h)) (fun h => h)) ?_
    rintro c s' ⟨h1, h2⟩
    refine Post.bind (ih h1 (by simpa using hl)) ?_
    rintro cs s'' ⟨h3, h4⟩
    exact ⟨h3, h4.trans h2⟩

/-- the Lua values an argument becomes -/
def argVals : Arg F → List (Val F)
  | .int i => [.int (luaInteger.wrap i)]
  | .num x => [.num x]
  | .bool b => [.bool b]
  | .str b => [.str b]
  | .arr xs => xs.map .num

theorem luaPush_post (L : Lua F) (a : Arg F) {s : St F} {l : List (Val F)} (h : s.stack = l) :
    Post (luaPush L a s) (fun n s' => s'.stack = (argVals a).reverse ++ l ∧ s'.mem = s.mem ∧ n = (argVals a).length)
      (Above l) True := by
  cases a with
  | arr xs =>
    rw [luaPush]
    by_cases hm : s.stack.length + (xs.length - 1) ≤ L.maxStack
    · rw [bind_of_ok (a := true) (s' := { s with cap := max s.cap (s.stack.length + (xs.length - 1)) })
        (by simp [checkstack, hm]), if_pos rfl]
      refine Post.bind ((pushes_post (xs.map Val.num) (s := { s with cap := max s.cap (s.stack.length + (xs.length - 1)) }) h).mono (fun _ _ h => h) (fun _ h => h.elim) (fun h => h)) ?_
      rintro - s' ⟨h1, h2⟩
      exact ⟨h1, h2, by simp [argVals]⟩
    · rw [bind_of_ok (a := false) (s' := s) (by simp [checkstack, hm]), if_neg (by simp)]
      exact above_self h
  | _ =>
    exact Post.bind ((push_post h _).mono (fun _ _ h => h) (fun _ h => h.elim) (fun h => h))
      fun _ s' h => ⟨by simpa [argVals] using h.1, h.2, rfl⟩

theorem luaPush_ok (L : Lua F) (a : Arg F) {s : St F} {l : List (Val F)} (h : s.stack = l)
    (hc : l.length + 1 ≤ s.cap) (hc' : l.length + (argVals a).length ≤ s.cap)
    (hm : l.length + (argVals a).length ≤ L.maxStack) :
    ∃ s', luaPush L a s = .ok (argVals a).length s' ∧ s'.stack = (argVals a).reverse ++ l ∧ s'.mem = s.mem ∧
      s.cap ≤ s'.cap := by
  cases a with
  | arr xs =>
    simp only [argVals, List.length_map] at hm hc'
    have hm' : s.stack.length + (xs.length - 1) ≤ L.maxStack := by rw [h]; omega
    obtain ⟨s2, e2, h2, m2, c2⟩ := pushes_ok (xs.map Val.num)
      (s := { s with cap := max s.cap (s.stack.length + (xs.length - 1)) }) h (by
        simp only [List.length_map, h]
        exact Nat.le_trans hc' (Nat.le_max_left _ _))
    refine ⟨s2, ?_, h2, m2, by rw [c2]; exact Nat.le_max_left _ _⟩
    rw [luaPush]
    rw [bind_of_ok (a := true) (s' := { s with cap := max s.cap (s.stack.length + (xs.length - 1)) })
      (by simp [checkstack, hm']), if_pos rfl, bind_of_ok e2]
    simp [argVals]
  | _ =>
    obtain ⟨s2, e2, h2, m2, c2⟩ := push_ok h _ (by omega)
    exact ⟨s2, by rw [luaPush, bind_of_ok e2]; rfl, by simpa [argVals] using h2, m2, by omega⟩

/-- all the values a list of arguments becomes, in order -/
def argsVals (args : List (Arg F)) : List (Val F) := args.flatMap argVals

theorem pushArgs_post (L : Lua F) (args : List (Arg F)) : ∀ {s : St F} {l : List (Val F)}, s.stack = l →
    Post (pushArgs L args s) (fun n s' => s'.stack = (argsVals args).reverse ++ l ∧ s'.mem = s.mem ∧
      n = (argsVals args).length) (Above l) True := by
  induction args with
  | nil => intro s l h; exact ⟨by simpa [argsVals] using h, rfl, rfl⟩
  | cons a as ih =>
    intro s l h
    refine Post.bind ((checkStack_post L 1 h).mono (fun _ _ h => h) (fun _ h => above_self h) (fun h => h.elim)) ?_
    rintro - s1 ⟨h1, m1, -⟩
    refine Post.bind (luaPush_post L a h1) ?_
    rintro n s2 ⟨h2, m2, rfl⟩
    refine Post.bind ((ih h2).mono (fun _ _ h => h) (fun _ h => above_append h) (fun h => h)) ?_
    rintro k s3 ⟨h3, m3, rfl⟩
    exact ⟨by simp [h3, argsVals], m3.trans (m2.trans m1), by simp [argsVals]⟩

theorem pushArgs_ok (L : Lua F) (args : List (Arg F)) : ∀ {s : St F} {l : List (Val F)}, s.stack = l →
    l.length + (argsVals args).length + 1 ≤ L.maxStack →
    (∀ a ∈ args, (argVals a).length ≤ 1) ∨ l.length + (argsVals args).length ≤ s.cap →
    ∃ s', pushArgs L args s = .ok (argsVals args).length s' ∧ s'.stack = (argsVals args).reverse ++ l ∧
      s'.mem = s.mem ∧ s.cap ≤ s'.cap := by
  induction args with
  | nil => intro s l h _ _; exact ⟨s, rfl, by simpa [argsVals] using h, rfl, Nat.le_refl _⟩
  | cons a as ih =>
    intro s l h hm hor
    have el : (argsVals (a :: as)).length = (argVals a).length + (argsVals as).length := by simp [argsVals]
    obtain ⟨s1, e1, h1, m1, c1, c1'⟩ := checkStack_ok L 1 h (by omega)
    obtain ⟨s2, e2, h2, m2, c2⟩ := luaPush_ok L a h1 c1' (by
      rcases hor with hor | hor
      · have := hor a (by simp); omega
      · omega) (by omega)
    obtain ⟨s3, e3, h3, m3, c3⟩ := ih h2 (by simp; omega) (by
      rcases hor with hor | hor
      · exact .inl fun b hb => hor b (by simp [hb])
      · right; simp; omega)
    refine ⟨s3, ?_, by simp [h3, argsVals], m3.trans (m2.trans m1), by omega⟩
    show (checkStack L 1 >>= _) s = _
    rw [bind_of_ok e1, bind_of_ok e2, bind_of_ok e3, el]; rfl

theorem makeRefs_eq (vs : List (Val F)) : ∀ {s : St F} {l : List (Val F)} (i : Int), s.stack = vs ++ l →
    collect (fun _ => makeRef) i vs.length s = .ok vs (s.on l) := by
  induction vs with
  | nil => intro s l i h; simp only [List.nil_append] at h; subst h; rfl
  | cons v vs ih =>
    intro s l i h
    have e : makeRef s = .ok v (s.on (vs ++ l)) := by unfold makeRef; rw [h]; rfl
    show (makeRef >>= _) s = _
    rw [bind_of_ok e, bind_of_ok (ih _ rfl)]; rfl

theorem checkNil_eq {s : St F} {v : Val F} {l : List (Val F)} (h : s.stack = v :: l) :
    (v = .nil ∧ checkNil s = .throw s) ∨ (v ≠ .nil ∧ checkNil s = .ok () s) := by
  unfold checkNil
  rw [bind_of_ok (peek_eq h)]
  cases v with
  | nil => exact .inl ⟨rfl, rfl⟩
  | _ => exact .inr ⟨by simp, rfl⟩

theorem checkFunction_eq {s : St F} {v : Val F} {l : List (Val F)} (h : s.stack = v :: l) :
    (∃ a, v = .func a ∧ checkFunction s = .ok a s) ∨ ((∀ a, v ≠ .func a) ∧ checkFunction s = .throw s) := by
  unfold checkFunction
  obtain ⟨rfl, e⟩ | ⟨hn, e⟩ := checkNil_eq h
  · rw [bind_of_throw e]; exact .inr ⟨by simp, rfl⟩
  · rw [bind_of_ok e, bind_of_ok (peek_eq h)]
    cases v with
    | func a => exact .inl ⟨a, rfl, rfl⟩
    | _ => exact .inr ⟨by simp, rfl⟩

theorem checkTable_eq {s : St F} {v : Val F} {l : List (Val F)} (h : s.stack = v :: l) :
    (∃ a, v = .table a ∧ checkTable s = .ok () s) ∨ ((∀ a, v ≠ .table a) ∧ checkTable s = .throw s) := by
  unfold checkTable
  obtain ⟨rfl, e⟩ | ⟨hn, e⟩ := checkNil_eq h
  · rw [bind_of_throw e]; exact .inr ⟨by simp, rfl⟩
  · rw [bind_of_ok e]
    have := checkIsTable_top s v l
    rw [← h, St.on_self] at this
    exact this

theorem gettop_eq (s : St F) : gettop s = .ok s.stack.length s := rfl
theorem clear_eq (s : St F) : clear s = .ok () (s.on []) := rfl
theorem makeRef_eq {s : St F} {v : Val F} {l : List (Val F)} (h : s.stack = v :: l) : makeRef s = .ok v (s.on l) := by
  unfold makeRef; rw [h]; rfl
theorem rawlenTop_eq' {s : St F} {v : Val F} {l : List (Val F)} (h : s.stack = v :: l) :
    rawlenTop s = .ok (rawlen s.mem v) s := by
  unfold rawlenTop; rw [peek_eq h]
theorem rawgetKey_eq {s : St F} {k : Val F} {a : Nat} {l : List (Val F)} (key : Bytes) (h : s.stack = k :: .table a :: l) :
    rawgetKey key s = .ok ((s.mem.heap a).gets key) (s.on ((s.mem.heap a).gets key :: .table a :: l)) := by
  unfold rawgetKey; rw [h]; rfl

/-- a call: on return the stack is as before, and the results were obtained by applying the
function to the arguments in order -/
theorem callResult_post (L : Lua F) (r : Result F) (args : List (Arg F)) {s : St F} {l : List (Val F)}
    (h : s.stack = l) :
    Post (callResult L r args s)
      (fun res s' => s'.stack = l ∧ ∃ f rs, r.refs.getLast? = some (.func f) ∧
        L.apply s.mem f (argsVals args) = .results s'.mem rs ∧ res = ⟨rs.reverse, rs.length⟩)
      (Above l) True := by
  unfold callResult
  rw [bind_of_ok (gettop_eq s)]
  refine Post.bind ((checkStack_post L 1 h).mono (fun _ _ h => h) (fun _ h => above_self h) (fun h => h.elim)) ?_
  rintro - s1 ⟨h1, m1, -⟩
  refine Post.bind ((pushLast_post L r h1).mono (fun _ _ h => h) (fun _ h => above_self h) (fun h => h)) ?_
  rintro - s2 ⟨v, hv, h2, m2⟩
  obtain ⟨f, rfl, e⟩ | ⟨-, e⟩ := checkFunction_eq h2
  rotate_left
  · rw [bind_of_throw e]; exact above_cons (above_self h2)
  rw [bind_of_ok e]
  refine Post.bind ((pushArgs_post L args h2).mono (fun _ _ h => h) (fun _ h => above_cons h) (fun h => h)) ?_
  rintro n s3 ⟨h3, m3, rfl⟩
  have ea : (s3.stack.take (argsVals args).length).reverse = argsVals args := by
    rw [h3, List.take_left' (by simp)]; simp
  have eb : s3.stack.drop ((argsVals args).length + 1) = l := by
    rw [h3, List.drop_append, List.drop_eq_nil_of_le (by simp)]; simp
  have em : s3.mem = s.mem := m3.trans (m2.trans m1)
  cases hc : L.apply s.mem f (argsVals args) with
  | error m e =>
    rw [bind_of_ok (a := false) (s' := { s3 with mem := m, stack := e :: l }) (by
      simp only [pcall, ea, eb, em, hc]), if_neg (by simp)]
    exact ⟨[e], rfl⟩
  | results m rs =>
    rw [bind_of_ok (a := true) (s' := { s3 with mem := m, stack := rs.reverse ++ l, cap := max s3.cap (rs.reverse ++ l).length }) (by
      simp only [pcall, ea, eb, em, hc]), if_pos rfl]
    refine Post.bind ((peek_post (-1)).mono (fun _ _ h => h) (fun _ h => h.elim) (fun h => h)) ?_
    rintro v s' rfl
    have fin : Post ((do
        let pos1 ← gettop
        let refs ← collect (fun _ => makeRef) 0 (pos1 - s.stack.length)
        pure (⟨refs, refs.length⟩ : Result F) : M F (Result F))
          { s3 with mem := m, stack := rs.reverse ++ l, cap := max s3.cap (rs.reverse ++ l).length })
        (fun res s' => s'.stack = l ∧ ∃ f' rs', r.refs.getLast? = some (.func f') ∧
          L.apply s.mem f' (argsVals args) = .results s'.mem rs' ∧ res = ⟨rs'.reverse, rs'.length⟩) (Above l) True := by
      rw [bind_of_ok (gettop_eq _)]
      have en : (rs.reverse ++ l).length - s.stack.length = rs.reverse.length := by rw [h]; simp
      rw [en, bind_of_ok (makeRefs_eq rs.reverse 0 rfl)]
      exact ⟨rfl, f, rs, hv, hc, by simp⟩
    cases v with
    | nil => exact ⟨rs.reverse, rfl⟩
    | _ => exact fin

theorem convert_post (L : Lua F) (r : Result F) (t : Ty) {s : St F} {l : List (Val F)} (h : s.stack = l) :
    Post (convert L r t s) (fun _ s' => s'.stack = l ∧ s'.mem = s.mem) (Above l) True := by
  unfold convert
  split
  · exact above_self h
  · refine Post.bind ((pushLast_post L r h).mono (fun _ _ h => h) (fun _ h => above_self h) (fun h => h)) ?_
    rintro - s1 ⟨v, -, h1, m1⟩
    exact (get_post' L t h1).mono (fun _ _ h => ⟨h.1, h.2.trans m1⟩) (fun _ h => above_cons h) (fun h => h)

theorem convertTuple_post (L : Lua F) (r : Result F) (ts : List Ty) {s : St F} {l : List (Val F)} (h : s.stack = l) :
    Post (convertTuple L r ts s) (fun _ s' => s'.stack = l ∧ s'.mem = s.mem) (Above l) True := by
  unfold convertTuple
  split
  · exact above_self h
  · rename_i hl
    simp only [ne_eq, Decidable.not_not] at hl
    refine Post.bind (Q := fun _ s' => s'.stack = r.refs.reverse ++ l ∧ s'.mem = s.mem) ?_ ?_
    · unfold pushAll
      refine Post.bind ((checkStack_post L _ h).mono (fun _ _ h => h) (fun _ h => above_self h) (fun h => h.elim)) ?_
      rintro - s1 ⟨h1, m1, -⟩
      exact (pushes_post r.refs h1).mono (fun _ _ h => ⟨h.1, h.2.trans m1⟩) (fun _ h => h.elim) (fun h => h)
    · rintro - s1 ⟨h1, m1⟩
      exact (getResults_post L ts h1 (by simp [hl])).mono (fun _ _ h => ⟨h.1, h.2.trans m1⟩) (fun _ h => h) (fun h => h)

/-- field access empties the stack -/
theorem field_post (L : Lua F) (r : Result F) (key : Bytes) {s : St F} {l : List (Val F)} (h : s.stack = l) :
    Post (field L r key s) (fun res s' => s'.stack = [] ∧ s'.mem = s.mem ∧ ∃ a, r.refs.getLast? = some (.table a) ∧
      res = ⟨[(s.mem.heap a).gets key], rawlen s.mem ((s.mem.heap a).gets key)⟩) (Above l) True := by
  unfold field
  refine Post.bind ((pushLast_post L r h).mono (fun _ _ h => h) (fun _ h => above_self h) (fun h => h)) ?_
  rintro - s1 ⟨v, hv, h1, m1⟩
  obtain ⟨a, rfl, e⟩ | ⟨-, e⟩ := checkTable_eq h1
  rotate_left
  · rw [bind_of_throw e]; exact above_cons (above_self h1)
  rw [bind_of_ok e]
  refine Post.bind ((checkStack_post L 1 h1).mono (fun _ _ h => h) (fun _ h => above_cons (above_self h)) (fun h => h.elim)) ?_
  rintro - s2 ⟨h2, m2, -⟩
  refine Post.bind ((push_post h2 _).mono (fun _ _ h => h) (fun _ h => h.elim) (fun h => h)) ?_
  rintro - s3 ⟨h3, m3⟩
  rw [bind_of_ok (rawgetKey_eq key h3), bind_of_ok (rawlenTop_eq s3 _ _), bind_of_ok (makeRef_eq rfl),
    bind_of_ok (clear_eq _)]
  have em : s3.mem = s.mem := m3.trans (m2.trans m1)
  exact ⟨rfl, em, a, hv, by rw [em]⟩

/-- so does element access -/
theorem element_post (L : Lua F) (r : Result F) (n : Int) {s : St F} {l : List (Val F)} (h : s.stack = l) :
    Post (element L r n s) (fun res s' => s'.stack = [] ∧ s'.mem = s.mem ∧ ∃ a, r.refs.getLast? = some (.table a) ∧
      res = ⟨[(s.mem.heap a).geti n], rawlen s.mem ((s.mem.heap a).geti n)⟩) (Above l) True := by
  unfold element
  refine Post.bind ((pushLast_post L r h).mono (fun _ _ h => h) (fun _ h => above_self h) (fun h => h)) ?_
  rintro - s1 ⟨v, hv, h1, m1⟩
  obtain ⟨a, rfl, e⟩ | ⟨-, e⟩ := checkTable_eq h1
  rotate_left
  · rw [bind_of_throw e]; exact above_cons (above_self h1)
  rw [bind_of_ok e]
  refine Post.bind (Q := fun _ s' => s'.stack = (s.mem.heap a).geti n :: .table a :: l ∧ s'.mem = s.mem) ?_ ?_
  · unfold rawgeti
    rw [h1]
    exact (push_post h1 _).mono (fun _ _ h => by rw [m1] at h; exact h) (fun _ h => h.elim) (fun h => h)
  · rintro - s2 ⟨h2, m2⟩
    rw [bind_of_ok (rawlenTop_eq' h2), bind_of_ok (makeRef_eq h2), bind_of_ok (clear_eq _)]
    exact ⟨rfl, m2, a, hv, by rw [m2]⟩

theorem global_post (key : Bytes) {s : St F} {l : List (Val F)} (h : s.stack = l) :
    Post (global key s) (fun res s' => s'.stack = l ∧ s'.mem = s.mem ∧
      res = ⟨[s.mem.globals (cstr key)], rawlen s.mem (s.mem.globals (cstr key))⟩) (fun _ => False) True := by
  unfold global
  rw [bind_of_ok (show getGlobal (cstr key) s = .ok (s.mem.globals (cstr key)) s from rfl)]
  refine Post.bind (push_post h _) ?_
  rintro - s2 ⟨h2, m2⟩
  rw [bind_of_ok (rawlenTop_eq' h2), bind_of_ok (makeRef_eq h2)]
  exact ⟨rfl, m2, by rw [m2]⟩

theorem run_post (L : Lua F) (script : Bytes) {s : St F} {l : List (Val F)} (h : s.stack = l) :
    Post (run L script s) (fun _ s' => ∃ rs, L.script s.mem (cstr script) = .results s'.mem rs ∧ s'.stack = rs.reverse ++ l)
      (fun s' => ∃ e, L.script s.mem (cstr script) = .error s'.mem e ∧ s'.stack = e :: l) True := by
  unfold run
  refine Post.bind ((push_post h _).mono (fun _ _ h => h) (fun _ h => h.elim) (fun h => h)) ?_
  rintro - s2 ⟨h2, m2⟩
  cases hc : L.script s.mem (cstr script) with
  | error m e =>
    rw [bind_of_ok (a := false) (s' := { s2 with mem := m, stack := e :: l }) (by
      simp [pcall, m2, hc, h2]), if_neg (by simp)]
    exact ⟨e, rfl, rfl⟩
  | results m rs =>
    rw [bind_of_ok (a := true) (s' := { s2 with mem := m, stack := rs.reverse ++ l, cap := max s2.cap (rs.reverse ++ l).length }) (by
      simp [pcall, m2, hc, h2]), if_pos rfl]
    exact ⟨rs, rfl, rfl⟩

end Verif.LuaStack
