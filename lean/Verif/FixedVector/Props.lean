import Verif.FixedVector.Lemmas

/-!
# Properties C01-C05 of `fixed_vector`

Vocabulary: `Verif/FixedVector/Spec.lean`.  `v.contents` is what iteration from
`begin()` to `end()` shows.
-/

namespace Verif.FixedVector

/-! ## C01 -/

/-- **C01** (element types moved by `memmove`, see C02 for the others).
Start from a default-constructed vector over arbitrary (uninitialised) cells and perform
any history in which every call is within its documented range.  No call fails or is
undefined; afterwards the vector shows exactly the sequence an unbounded vector would
show, its size is the length of that sequence and at most the capacity, the capacity is
unchanged, and `at` returns each element and throws for every other index. -/
theorem C01_history_refines_list {T : Type} (cells : List T) (ops : List (Op T))
    (ys : List T) (h : Spec.History cells.length [] ops ys) :
    ∃ v, run .memmove (FV.mk0 cells) ops = .ok v ∧ v.contents = ys ∧ v.len = ys.length ∧
      v.len ≤ cells.length ∧ v.cells.length = cells.length ∧
      (∀ i, at' v i = match ys[i]? with | some x => .ok x | none => .outOfRange) := by
  obtain ⟨v, e, hv⟩ := run_sim cells.length ops (FV.mk0 cells) [] ys
    ⟨rfl, Nat.zero_le _, by simp [FV.mk0, FV.contents]⟩ h
  refine ⟨v, e, hv.contents_eq, hv.length.symm, hv.len_le, hv.cap_eq, ?_⟩
  intro i
  have h1 := hv.len_le; have h2 := hv.cap_eq
  rw [← hv.contents_eq, FV.contents, List.getElem?_take]
  unfold at'
  by_cases hi : i < v.len
  · rw [if_neg (by omega), read_ok (by omega), if_pos hi, List.getElem?_eq_getElem (by omega)]
  · rw [if_pos (by omega), if_neg hi]

/-- a non-trivial history within range -/
example : Spec.History 4 [] [.pushBack 1, .assignList [5, 6, 7], .insert 1 9, .eraseRange 0 2,
    .resizeFill 3 8, .popBack, .setAt 0 2] [2, 7] := by
  repeat (first
    | exact .nil _
    | refine .cons ⟨by simp [Spec.positionsValid, Spec.result],
        by simp [Spec.fits, Spec.result]⟩ ?_)

/-- **C01** For element types of any kind, histories that never insert in front of existing
elements (`push_back`, `pop_back`, `clear`, `assign`, `resize`, `erase`, element
assignment) behave as the plain sequence, whatever moved-from objects look like. -/
theorem C01_step_any_type {T : Type} (m : Mode T) (v : FV T) (op : Op T)
    (hop : op.inserts = false) (hlen : v.len ≤ v.cells.length)
    (ha : Spec.allowed v.cells.length v.contents op) :
    ∃ v' r, step m v op = .ok (v', r) ∧ v'.contents = Spec.result v.contents op ∧
      v'.cells.length = v.cells.length ∧ v'.len ≤ v.cells.length := by
  obtain ⟨v', r, e, h, _⟩ := step_sim m v.cells.length v v.contents op (by simp [hop])
    ⟨rfl, hlen, rfl⟩ ha
  exact ⟨v', r, e, h.contents_eq, h.cap_eq, h.len_le⟩

example : Spec.allowed 4 ([1, 2, 3] : List Nat) (.erase 1) := by
  simp [Spec.allowed, Spec.positionsValid, Spec.fits, Spec.result]

/-- **C01** A call that would make the sequence longer than the capacity is stopped by the
assertion, in every state and for every element type. -/
theorem C01_overflow_is_rejected {T : Type} (m : Mode T) (v : FV T) (op : Op T)
    (hlen : v.len ≤ v.cells.length) (hp : Spec.positionsValid v.contents op)
    (hf : ¬ Spec.fits v.cells.length v.contents op) : step m v op = .assertFail := by
  have hl : v.contents.length = v.len := by simp [FV.contents]; omega
  unfold Spec.fits at hf
  cases op with
  | pushBack x =>
    simp [Spec.result, hl] at hf
    simp [step, pushBack, show ¬ v.len < v.cells.length by omega]
  | popBack => exact absurd hf (by simp [Spec.result, hl]; omega)
  | clear => exact absurd hf (by simp [Spec.result])
  | assignFill n x =>
    simp [Spec.result] at hf
    simp [step, assignFill, show ¬ n ≤ v.cells.length by omega]
  | assignList ys =>
    simp [Spec.result] at hf
    simp [step, assignList, show ¬ ys.length ≤ v.cells.length by omega]
  | resizeFill n x =>
    simp [Spec.result, hl] at hf
    simp [step, resizeFill, show ¬ n ≤ v.cells.length by omega]
  | insert pos x =>
    simp [Spec.result, hl, Spec.positionsValid] at hf hp
    simp [step, insertArg, show ¬ v.len < v.cells.length by omega]
  | insertFill pos n x =>
    simp [Spec.result, hl, Spec.positionsValid] at hf hp
    simp [step, insertFill, show ¬ v.len + n ≤ v.cells.length by omega]
  | insertRange pos ys =>
    simp [Spec.result, hl, Spec.positionsValid] at hf hp
    simp [step, insertRange, show ¬ v.len + ys.length ≤ v.cells.length by omega]
  | insertIList pos ys =>
    simp [Spec.result, hl, Spec.positionsValid] at hf hp
    simp [step, insertIList, show ¬ v.len + ys.length ≤ v.cells.length by omega]
  | erase pos => exact absurd hf (by simp [Spec.result, hl]; omega)
  | eraseRange a b =>
    simp [Spec.positionsValid, hl] at hp
    exact absurd hf (by simp [Spec.result, hl]; omega)
  | setAt i x => exact absurd hf (by simp [Spec.result, hl]; omega)

example : ¬ Spec.fits 3 ([1, 2, 3] : List Nat) (.insert 1 7) := by simp [Spec.fits, Spec.result]

/-- **C01** Copy construction and swap. -/
theorem C01_copy_and_swap {T : Type} (fresh : List T) (v w : FV T) (hv : v.len ≤ v.cells.length)
    (hc : fresh.length = v.cells.length) :
    (∃ u, copyCtor fresh v = .ok u ∧ u.contents = v.contents ∧ u.len = v.len) ∧
    (swap v w).1.contents = w.contents ∧ (swap v w).2.contents = v.contents := by
  refine ⟨?_, rfl, rfl⟩
  have hl : ((v.cells.drop 0).take v.len).length = v.len := by simp; omega
  refine ⟨⟨v.cells.take v.len ++ fresh.drop v.len, v.len⟩, ?_, ?_, rfl⟩
  · simp only [copyCtor, readList_ok _ _ _ (show 0 + v.len ≤ v.cells.length by omega),
      Outcome.bind_ok, writeList_ok _ fresh 0 (show 0 + ((v.cells.drop 0).take v.len).length ≤ fresh.length by
      rw [hl]; omega), hl]
    simp
  · simp only [FV.contents]
    rw [List.take_append_of_le_length (by simp; omega), List.take_take]; simp

/-- three elements in four cells -/
example : ∃ u, copyCtor [0, 0, 0, 0] ⟨[1, 2, 3, 9], 3⟩ = .ok u ∧ u.contents = [1, 2, 3] := by
  obtain ⟨⟨u, h, h', -⟩, -⟩ := C01_copy_and_swap [0, 0, 0, 0] ⟨[1, 2, 3, 9], 3⟩ ⟨[7, 7, 7, 7], 1⟩ (by decide) rfl
  exact ⟨u, h, h'⟩

/-- **C01** `resize(count)` without a value: the common prefix is kept, the size is `count`
(new elements, if any, are unspecified); too large a count is rejected. -/
theorem C01_resize {T : Type} (v : FV T) (n : Nat) (hv : v.len ≤ v.cells.length) :
    (n ≤ v.cells.length → ∃ u, resize v n = .ok u ∧ u.contents.length = n ∧
      u.contents.take (min n v.len) = v.contents.take (min n v.len)) ∧
    (v.cells.length < n → resize v n = .assertFail) := by
  constructor
  · intro h
    refine ⟨⟨v.cells, n⟩, by simp [resize, h], by simp [FV.contents]; omega, ?_⟩
    simp only [FV.contents, List.take_take]; congr 1; omega
  · intro h; simp [resize, show ¬ n ≤ v.cells.length by omega]

example : (∃ u, resize ⟨[1, 2, 3, 9], 2⟩ 3 = .ok u ∧ u.contents.length = 3 ∧ u.contents.take 2 = [1, 2]) ∧
    resize ⟨[1, 2, 3, 9], 2⟩ 5 = .assertFail :=
  ⟨(C01_resize ⟨[1, 2, 3, 9], 2⟩ 3 (by decide)).1 (by decide), (C01_resize ⟨[1, 2, 3, 9], 2⟩ 5 (by decide)).2 (by decide)⟩

/-! ## C02 -/

/-- the full claim of C02 for the way `m` of moving elements -/
def InsertCorrect {T : Type} (m : Mode T) : Prop :=
  ∀ (v : FV T) (pos : Nat) (x : T), v.len < v.cells.length → pos ≤ v.len →
    ∃ v', insertArg m v pos (.ext x) = .ok (v', pos) ∧
      v'.contents = v.contents.take pos ++ [x] ++ v.contents.drop pos

/-- **C02** holds when elements are moved by `memmove` (trivially copyable types). -/
theorem C02_insert_memmove_partial {T : Type} : InsertCorrect (Mode.memmove : Mode T) := by
  intro v pos x h1 h2
  have hl : v.contents.length = v.len := by simp [FV.contents]; omega
  obtain ⟨v', r, e, h, _, hr, _⟩ := step_sim .memmove v.cells.length v v.contents (.insert pos x)
    (fun _ => rfl) ⟨rfl, by omega, rfl⟩
    ⟨by simpa [Spec.positionsValid, hl] using h2, by simp [Spec.fits, Spec.result, hl]; omega⟩
  have hr := hr (by simp)
  simp only [step, Spec.returned] at e hr
  cases hi : insertArg .memmove v pos (.ext x) with
  | ok p =>
    rw [hi] at e
    simp only [Outcome.bind_ok, Outcome.ok.injEq, Prod.mk.injEq] at e
    obtain ⟨e1, e2⟩ := e
    refine ⟨v', ?_, h.contents_eq⟩
    rw [hr] at e2
    simp only [Option.some.injEq] at e2
    rw [← e1, ← e2]
  | _ => rw [hi] at e; simp at e

/-- **C02 fails** for every element type moved element by element (any type that is not
trivially copyable), whatever a moved-from object looks like: inserting in front of two or
more elements overwrites them. -/
theorem C02_insert_fails (res : Nat → Nat) : ¬ InsertCorrect (Mode.loop res) := by
  intro h
  obtain ⟨v', e, hc⟩ := h ⟨[1, 2, 0], 2⟩ 0 9 (by simp) (by simp)
  simp [insertArg, validate, shift, moveLoop, read, write, Arg.deref] at e
  subst e
  simp [FV.contents] at hc

/-- **C02** What the element-wise move does instead, whatever a moved-from object looks like:
of the shifted elements only the first survives, at the last place; every place before it shows
what is left of that element after it has been moved from. -/
theorem C02_insert_moved {T : Type} (res : T → T) (v : FV T) (pos : Nat) (x y : T)
    (h1 : v.len < v.cells.length) (h2 : pos < v.len) (hy : v.contents[pos]? = some y) :
    ∃ v', insertArg (Mode.loop res) v pos (.ext x) = .ok (v', pos) ∧
      v'.contents = v.contents.take pos ++ [x] ++ List.replicate (v.len - pos - 1) (res y) ++ [y] := by
  have key : ∀ (n : Nat) (c : List T) (src : Nat), src + 1 + n ≤ c.length → c[src]? = some y →
      moveLoop res c src (src + 1) n = .ok (c.take src ++ List.replicate n (res y) ++ [y] ++ c.drop (src + 1 + n)) := by
    intro n
    induction n with
    | zero =>
      intro c src h hy
      simp only [moveLoop, Outcome.ok.injEq]
      apply List.ext_getElem?
      intro k
      simp only [List.getElem?_append, List.getElem?_take, List.getElem?_drop, List.length_append,
        List.length_take, List.getElem?_replicate, List.length_replicate, List.getElem?_cons, List.length_cons,
        List.length_nil]
      grind
    | succ n ih =>
      intro c src h hy
      have hs : src < c.length := by omega
      have hyy : c[src] = y := by
        rw [List.getElem?_eq_getElem hs] at hy; exact Option.some.inj hy
      simp only [moveLoop, read_ok hs, write_ok hs, Outcome.bind_ok, hyy]
      rw [write_ok (by simp; omega)]
      simp only [Outcome.bind_ok]
      rw [ih _ _ (by simp; omega) (by rw [List.getElem?_set]; simp; omega)]
      congr 1
      clear ih
      apply List.ext_getElem?
      intro k
      simp only [List.getElem?_append, List.getElem?_take, List.getElem?_drop, List.length_append,
        List.length_take, List.getElem?_replicate, List.length_replicate, List.getElem?_set, List.length_set,
        List.getElem?_cons, List.length_cons, List.length_nil]
      grind
  have hy' : v.cells[pos]? = some y := by
    rw [FV.contents, List.getElem?_take, if_pos h2] at hy; exact hy
  have hk := key (v.len - pos) v.cells pos (by omega) hy'
  refine ⟨⟨(v.cells.take pos ++ List.replicate (v.len - pos) (res y) ++ [y] ++
      v.cells.drop (pos + 1 + (v.len - pos))).set pos x, v.len + 1⟩, ?_, ?_⟩
  · have h2' : pos ≤ v.len := by omega
    have h3 : ¬ v.len < pos := by omega
    simp only [insertArg, validate, shift, h1, h2', h3, decide_true, Outcome.assert_true,
      Outcome.bind_ok, if_false, hk, Arg.deref]
    rw [write_ok (by simp; omega)]
    rfl
  · simp only [FV.contents]
    apply List.ext_getElem?
    intro k
    simp only [List.getElem?_append, List.getElem?_take, List.getElem?_drop, List.length_append,
      List.length_take, List.getElem?_replicate, List.length_replicate, List.getElem?_set,
      List.getElem?_cons, List.length_drop, List.length_cons, List.length_nil]
    grind

/-- **C02** For types whose moved-from objects keep their value (copied, not moved): every shifted
position receives the element that was at `pos`. -/
theorem C02_insert_smears {T : Type} (v : FV T) (pos : Nat) (x y : T)
    (h1 : v.len < v.cells.length) (h2 : pos < v.len) (hy : v.contents[pos]? = some y) :
    ∃ v', insertArg (Mode.loop id) v pos (.ext x) = .ok (v', pos) ∧
      v'.contents = v.contents.take pos ++ [x] ++ List.replicate (v.len - pos) y := by
  obtain ⟨v', e, h⟩ := C02_insert_moved id v pos x y h1 h2 hy
  refine ⟨v', e, ?_⟩
  rw [h, List.append_assoc _ _ [y], id, ← List.replicate_succ', show v.len - pos - 1 + 1 = v.len - pos by omega]

example : ([7, 8, 9] : List Nat)[1]? = some 8 := rfl

/-- **C02** Element-wise moving is nevertheless right when at most one element is shifted
(insertion at the end or before the last element), whatever the residue. -/
theorem C02_insert_near_end_partial {T : Type} (res : T → T) (v : FV T) (pos : Nat) (x : T)
    (h1 : v.len < v.cells.length) (h2 : pos ≤ v.len) (h3 : v.len ≤ pos + 1) :
    ∃ v', insertArg (Mode.loop res) v pos (.ext x) = .ok (v', pos) ∧
      v'.contents = v.contents.take pos ++ [x] ++ v.contents.drop pos := by
  obtain ⟨c', e, hl, ht, hd⟩ := moveLoop_right res (v.len - pos) v.cells pos (pos + 1) (by omega) (by omega)
  refine ⟨⟨c'.set pos x, v.len + 1⟩, ?_, ?_⟩
  · have h3 : ¬ v.len < pos := by omega
    simp only [insertArg, validate, shift, h1, h2, h3, decide_true, Outcome.assert_true,
      Outcome.bind_ok, if_false, e, Arg.deref]
    rw [write_ok (by omega)]
    rfl
  · simp only [FV.contents]
    apply List.ext_getElem?
    intro k
    have ht' := congrArg (fun l => l[k]?) ht
    have hd' := congrArg (fun l => l[k - (pos + 1)]?) hd
    simp only [List.getElem?_append, List.getElem?_take, List.getElem?_drop, List.length_append,
      List.length_take, List.getElem?_set, List.getElem?_cons, List.length_drop, List.length_cons,
      List.length_nil] at ht' hd' ⊢
    clear ht hd e
    grind

/-- before the last of three elements -/
example : ∃ v', insertArg (Mode.loop fun _ => 0) ⟨[1, 2, 3, 9, 9], 3⟩ 2 (.ext 5) = .ok (v', 2) ∧ v'.contents = [1, 2, 5, 3] :=
  C02_insert_near_end_partial _ ⟨[1, 2, 3, 9, 9], 3⟩ 2 5 (by decide) (by decide) (by decide)

/-- **C02** exactly, for element-wise moving: the insertion is right if and only if at most one
element is shifted, or all shifted elements are equal and moving from them leaves them as they
were. -/
theorem C02_insert_iff {T : Type} (res : T → T) (v : FV T) (pos : Nat) (x : T)
    (h1 : v.len < v.cells.length) (h2 : pos ≤ v.len) :
    (∃ v', insertArg (Mode.loop res) v pos (.ext x) = .ok (v', pos) ∧
      v'.contents = v.contents.take pos ++ [x] ++ v.contents.drop pos) ↔
      v.len ≤ pos + 1 ∨ ∃ y, res y = y ∧ v.contents.drop pos = List.replicate (v.len - pos) y := by
  have hlen : v.contents.length = v.len := by simp [FV.contents]; omega
  constructor
  · rintro ⟨v', e, h⟩
    by_cases hp : v.len ≤ pos + 1
    · exact .inl hp
    · right
      have hlt : pos < v.contents.length := by omega
      obtain ⟨v'', e', h'⟩ := C02_insert_moved res v pos x v.contents[pos] h1 (by omega) (List.getElem?_eq_getElem hlt)
      rw [e, Outcome.ok.injEq, Prod.mk.injEq] at e'
      obtain ⟨rfl, -⟩ := e'
      rw [h, List.append_assoc _ (List.replicate _ _), List.append_cancel_left_eq] at h'
      have h0 := congrArg (fun l => l[0]?) h'
      simp only [List.getElem?_drop, Nat.add_zero, List.getElem?_eq_getElem hlt] at h0
      rw [List.getElem?_append_left (by simp; omega), List.getElem?_replicate, if_pos (by omega),
        Option.some.injEq] at h0
      refine ⟨v.contents[pos], h0.symm, ?_⟩
      rw [h', ← h0, ← List.replicate_succ', show v.len - pos - 1 + 1 = v.len - pos by omega]
  · rintro (h | ⟨y, hy, h⟩)
    · exact C02_insert_near_end_partial res v pos x h1 h2 h
    · by_cases hp : pos = v.len
      · exact C02_insert_near_end_partial res v pos x h1 h2 (by omega)
      · have hy0 : v.contents[pos]? = some y := by
          have := congrArg (fun l => l[0]?) h
          simp only [List.getElem?_drop, Nat.add_zero] at this
          rw [this, List.getElem?_replicate, if_pos (by omega)]
        obtain ⟨v', e, h'⟩ := C02_insert_moved res v pos x y h1 (by omega) hy0
        refine ⟨v', e, ?_⟩
        rw [h', h, hy, List.append_assoc _ (List.replicate _ _), ← List.replicate_succ',
          show v.len - pos - 1 + 1 = v.len - pos by omega]

/-- in front of three equal strings that survive being moved from -/
example : ∃ v', insertArg (Mode.loop id) ⟨[4, 4, 4, 9], 3⟩ 0 (.ext 5) = .ok (v', 0) ∧
    v'.contents = (⟨[4, 4, 4, 9], 3⟩ : FV Nat).contents.take 0 ++ [5] ++ (⟨[4, 4, 4, 9], 3⟩ : FV Nat).contents.drop 0 :=
  (C02_insert_iff id ⟨[4, 4, 4, 9], 3⟩ 0 5 (by decide) (by decide)).2 (.inr ⟨4, rfl, by decide⟩)

/-- **C02 fails** also for trivially copyable types when the argument refers to an element
of the vector at or after the insertion point's successor: `v.insert(v.begin(), v[1])` on
`{1,2}` inserts `1`, not `2`. -/
theorem C02_insert_alias_fails :
    ∃ (v v' : FV Nat) (i : Nat) (x : Nat), v.contents[i]? = some x ∧ v.len < v.cells.length ∧
      insertArg .memmove v 0 (.cell i) = .ok (v', 0) ∧ v'.contents ≠ [x] ++ v.contents :=
  ⟨⟨[1, 2, 0], 2⟩, ⟨[1, 1, 2], 3⟩, 1, 2, rfl, by simp, rfl, by simp [FV.contents]⟩

/-- **C02** With an aliasing argument at or before the insertion point the result is right. -/
theorem C02_insert_alias_partial {T : Type} (v : FV T) (pos i : Nat) (x : T)
    (h1 : v.len < v.cells.length) (h2 : pos ≤ v.len) (hi : i ≤ pos) (hx : v.contents[i]? = some x) :
    ∃ v', insertArg .memmove v pos (.cell i) = .ok (v', pos) ∧
      v'.contents = v.contents.take pos ++ [x] ++ v.contents.drop pos := by
  obtain ⟨v', e, hc⟩ := C02_insert_memmove_partial v pos x h1 h2
  refine ⟨v', ?_, hc⟩
  have hi' : i < v.len := by
    rcases Nat.lt_or_ge i v.len with h | h
    · exact h
    · rw [FV.contents, List.getElem?_take, if_neg (by omega)] at hx; simp at hx
  rw [FV.contents, List.getElem?_take, if_pos hi'] at hx
  rw [← e]
  have hsh := shift_memmove (c := v.cells) (src := pos) (last := v.len) (dst := pos + 1) h2 (by omega) (by omega)
  simp only [insertArg, validate, h1, h2, decide_true, Outcome.assert_true, Outcome.bind_ok, hsh, Arg.deref]
  have : read (v.cells.take (pos + 1) ++ (v.cells.drop pos).take (v.len - pos) ++
      v.cells.drop (pos + 1 + (v.len - pos))) i = .ok x := by
    unfold read
    have : (v.cells.take (pos + 1) ++ (v.cells.drop pos).take (v.len - pos) ++
      v.cells.drop (pos + 1 + (v.len - pos)))[i]? = some x := by
      rw [← hx]
      simp only [List.getElem?_append, List.getElem?_take, List.length_append, List.length_take]
      grind
    rw [this]
  rw [this]; rfl

example : ([4, 5, 6] : List Nat)[1]? = some 5 ∧ 1 ≤ 2 := by simp

/-- **C02** An argument that refers to an element after the insertion point: what is inserted is
the element one position before it, because the elements were shifted first.  Exactly: the call is
right if and only if those two elements are equal. -/
theorem C02_insert_alias_iff {T : Type} (v : FV T) (pos i : Nat) (x y : T)
    (h1 : v.len < v.cells.length) (hi : pos < i) (hx : v.contents[i]? = some x) (hy : v.contents[i - 1]? = some y) :
    ∃ v', insertArg .memmove v pos (.cell i) = .ok (v', pos) ∧
      v'.contents = v.contents.take pos ++ [y] ++ v.contents.drop pos ∧
      (v'.contents = v.contents.take pos ++ [x] ++ v.contents.drop pos ↔ y = x) := by
  have hi' : i < v.len := by
    rcases Nat.lt_or_ge i v.len with h | h
    · exact h
    · rw [FV.contents, List.getElem?_take, if_neg (by omega)] at hx; simp at hx
  have h2 : pos ≤ v.len := by omega
  obtain ⟨v', e, hc⟩ := C02_insert_memmove_partial v pos y h1 h2
  refine ⟨v', ?_, hc, by rw [hc]; simp⟩
  rw [FV.contents, List.getElem?_take, if_pos (by omega)] at hy
  rw [← e]
  have hsh := shift_memmove (c := v.cells) (src := pos) (last := v.len) (dst := pos + 1) h2 (by omega) (by omega)
  simp only [insertArg, validate, h1, h2, decide_true, Outcome.assert_true, Outcome.bind_ok, hsh, Arg.deref]
  have : read (v.cells.take (pos + 1) ++ (v.cells.drop pos).take (v.len - pos) ++
      v.cells.drop (pos + 1 + (v.len - pos))) i = .ok y := by
    unfold read
    have : (v.cells.take (pos + 1) ++ (v.cells.drop pos).take (v.len - pos) ++
      v.cells.drop (pos + 1 + (v.len - pos)))[i]? = some y := by
      rw [← hy]
      simp only [List.getElem?_append, List.getElem?_take, List.length_append, List.length_take, List.getElem?_drop]
      grind
    rw [this]
  rw [this]; rfl

example : ∃ v', insertArg .memmove ⟨[4, 5, 6, 0], 3⟩ 0 (.cell 2) = .ok (v', 0) ∧ v'.contents = [5, 4, 5, 6] :=
  ⟨_, rfl, by decide⟩

/-! ## C03 -/

/-- **C03** `erase(pos)` removes exactly that element and returns the position that followed
it, for every element type. -/
theorem C03_erase {T : Type} (m : Mode T) (v : FV T) (pos : Nat)
    (hv : v.len ≤ v.cells.length) (h : pos < v.len) :
    ∃ v', erase m v pos = .ok (v', pos) ∧
      v'.contents = v.contents.take pos ++ v.contents.drop (pos + 1) ∧ v'.len + 1 = v.len := by
  have hl : v.contents.length = v.len := by simp [FV.contents]; omega
  obtain ⟨v', r, e, ha, _, hr, _⟩ := step_sim m v.cells.length v v.contents (.erase pos)
    (by simp [Op.inserts]) ⟨rfl, hv, rfl⟩
    ⟨by simpa [Spec.positionsValid, hl] using h, by simp [Spec.fits, Spec.result, hl]; omega⟩
  have hr := hr (by simp)
  simp only [step, Spec.returned] at e hr
  have hlen := ha.length
  simp only [Spec.result, List.length_append, List.length_take, List.length_drop, hl] at hlen
  cases hi : erase m v pos with
  | ok p =>
    rw [hi] at e
    simp only [Outcome.bind_ok, Outcome.ok.injEq, Prod.mk.injEq] at e
    obtain ⟨e1, e2⟩ := e
    rw [hr] at e2
    simp only [Option.some.injEq] at e2
    exact ⟨v', by rw [← e1, ← e2], ha.contents_eq, by omega⟩
  | _ => rw [hi] at e; simp at e

example : ∃ v', erase (Mode.loop fun _ => 0) ⟨[1, 2, 3, 9], 3⟩ 1 = .ok (v', 1) ∧ v'.contents = [1, 3] ∧ v'.len + 1 = 3 :=
  C03_erase _ ⟨[1, 2, 3, 9], 3⟩ 1 (by decide) (by decide)

/-- **C03** `erase(first,last)` removes exactly the range, for every element type. -/
theorem C03_erase_range_contents {T : Type} (m : Mode T) (v : FV T) (a b : Nat)
    (hv : v.len ≤ v.cells.length) (hab : a ≤ b) (hb : b ≤ v.len) :
    ∃ v' r, eraseRange m v a b = .ok (v', r) ∧
      v'.contents = v.contents.take a ++ v.contents.drop b ∧ v'.len + (b - a) = v.len ∧
      (a < b → r = a) := by
  have hl : v.contents.length = v.len := by simp [FV.contents]; omega
  obtain ⟨v', r, e, ha, _, hr, _⟩ := step_sim m v.cells.length v v.contents (.eraseRange a b)
    (by simp [Op.inserts]) ⟨rfl, hv, rfl⟩
    ⟨by simpa [Spec.positionsValid, hl] using ⟨hab, hb⟩, by simp [Spec.fits, Spec.result, hl]; omega⟩
  have hlen := ha.length
  simp only [Spec.result, List.length_append, List.length_take, List.length_drop, hl] at hlen
  simp only [step, Spec.returned] at e hr
  cases hi : eraseRange m v a b with
  | ok p =>
    rw [hi] at e
    simp only [Outcome.bind_ok, Outcome.ok.injEq, Prod.mk.injEq] at e
    obtain ⟨e1, e2⟩ := e
    refine ⟨p.1, p.2, rfl, by rw [e1]; exact ha.contents_eq, by rw [e1]; omega, ?_⟩
    intro hlt
    have hr := hr (by intro a' h; injection h with h1 h2; omega)
    rw [hr] at e2
    exact Option.some.inj e2
  | _ => rw [hi] at e; simp at e

example : ∃ v' r, eraseRange .memmove ⟨[1, 2, 3, 4, 9], 4⟩ 1 3 = .ok (v', r) ∧ v'.contents = [1, 4] ∧ v'.len + 2 = 4 ∧ r = 1 := by
  obtain ⟨v', r, h, h1, h2, h3⟩ := C03_erase_range_contents .memmove ⟨[1, 2, 3, 4, 9], 4⟩ 1 3 (by decide) (by decide) (by decide)
  exact ⟨v', r, h, h1, h2, h3 (by decide)⟩

/-- **C03 fails** for the returned iterator: erasing the empty range at position 2 of a
three-element vector returns `begin()`, not position 2. -/
theorem C03_erase_empty_range_returns_begin_fails :
    ∃ (v v' : FV Nat) (a r : Nat), a ≤ v.len ∧ v.len ≤ v.cells.length ∧
      eraseRange .memmove v a a = .ok (v', r) ∧ r ≠ a :=
  ⟨⟨[1, 2, 3], 3⟩, ⟨[1, 2, 3], 3⟩, 2, 0, by simp, by simp, rfl, by simp⟩

/-- **C03** `erase(end())` on a non-empty vector is undefined (it moves from beyond the
end), for every element type. -/
theorem C03_erase_end_undefined {T : Type} (m : Mode T) (v : FV T) (h : 0 < v.len) :
    erase m v v.len = .ub := by
  have h0 : v.len ≠ 0 := by omega
  simp [erase, h0, validate, shift]

example : erase .memmove ⟨[1, 2, 3, 9], 3⟩ 3 = .ub := C03_erase_end_undefined _ ⟨[1, 2, 3, 9], 3⟩ (by decide)

/-! ## C04 -/

/-- **C04** exact meaning of `a == b`: `a`'s sequence equals the first `a.size()` storage
slots of `b`, used or not. -/
theorem C04_eq_characterisation {T : Type} [DecidableEq T] (a b : FV T)
    (ha : a.len ≤ a.cells.length) (hc : a.cells.length = b.cells.length) :
    eqOp a b = .ok (decide (a.contents = b.cells.take a.len)) := by
  unfold eqOp
  rw [eqLoop_spec _ _ _ _ (by omega) (by omega)]
  congr 1

/-- a prefix compares equal, one way round -/
example : eqOp ⟨[1, 2, 9, 9], 2⟩ ⟨[1, 2, 3, 9], 3⟩ = .ok true ∧ eqOp ⟨[1, 2, 3, 9], 3⟩ ⟨[1, 2, 9, 9], 2⟩ = .ok false :=
  ⟨C04_eq_characterisation ⟨[1, 2, 9, 9], 2⟩ ⟨[1, 2, 3, 9], 3⟩ (by decide) rfl,
    C04_eq_characterisation ⟨[1, 2, 3, 9], 3⟩ ⟨[1, 2, 9, 9], 2⟩ (by decide) rfl⟩

/-- **C04 fails**: `==` is not symmetric and calls vectors of different size equal. -/
theorem C04_eq_fails :
    ∃ a b : FV Nat, a.cells.length = b.cells.length ∧ a.len ≤ a.cells.length ∧
      b.len ≤ b.cells.length ∧ a.contents ≠ b.contents ∧
      eqOp a b = .ok true ∧ eqOp b a = .ok false :=
  ⟨⟨[1, 0], 1⟩, ⟨[1, 2], 2⟩, rfl, by simp, by simp, by simp [FV.contents], rfl, rfl⟩

/-- **C04** holds when the sizes agree. -/
theorem C04_eq_same_size_partial {T : Type} [DecidableEq T] (a b : FV T)
    (ha : a.len ≤ a.cells.length) (hc : a.cells.length = b.cells.length) (hs : a.len = b.len) :
    eqOp a b = .ok (decide (a.contents = b.contents)) := by
  rw [C04_eq_characterisation a b ha hc, hs]; rfl

example : ∃ a b : FV Nat, a.len = b.len ∧ a.cells.length = b.cells.length ∧ a ≠ b ∧
    eqOp a b = .ok true := ⟨⟨[1, 5], 1⟩, ⟨[1, 6], 1⟩, rfl, rfl, by simp, rfl⟩

/-! ## C05 (fixed_vector part) -/

/-- **C05** `at(i)` returns the `i`-th element of the sequence for `i < size()`, throws
`out_of_range` otherwise, and never touches memory outside the container. -/
theorem C05_fixed_vector_at {T : Type} (v : FV T) (hv : v.len ≤ v.cells.length) (i : Nat) :
    (∀ x, at' v i = .ok x ↔ v.contents[i]? = some x) ∧
    (at' v i = .outOfRange ↔ v.contents.length ≤ i) ∧ at' v i ≠ .ub := by
  have hl : v.contents.length = v.len := by simp [FV.contents]; omega
  by_cases hi : i < v.len
  · have : at' v i = .ok v.cells[i] := by
      unfold at'; rw [if_neg (by omega), read_ok (by omega)]
    rw [this, hl]
    refine ⟨fun x => ?_, by simp; omega, by simp⟩
    rw [FV.contents, List.getElem?_take, if_pos hi, List.getElem?_eq_getElem (by omega)]
    simp
  · have : at' v i = .outOfRange := by unfold at'; rw [if_pos (by omega)]
    rw [this, hl]
    refine ⟨fun x => ?_, by simp; omega, by simp⟩
    rw [FV.contents, List.getElem?_take, if_neg hi]
    simp

example : at' ⟨[1, 2, 3, 9], 3⟩ 2 = .ok 3 ∧ at' ⟨[1, 2, 3, 9], 3⟩ 3 = .outOfRange :=
  ⟨((C05_fixed_vector_at ⟨[1, 2, 3, 9], 3⟩ (by decide) 2).1 3).2 rfl,
    (C05_fixed_vector_at ⟨[1, 2, 3, 9], 3⟩ (by decide) 3).2.1.2 (by decide)⟩

/-- **C05** `front`/`back` give the first and last element of a non-empty vector. -/
theorem C05_fixed_vector_front_back {T : Type} (v : FV T) (hv : v.len ≤ v.cells.length)
    (x : T) (ys : List T) :
    (v.contents = x :: ys → front v = .ok x) ∧ (v.contents = ys ++ [x] → back v = .ok x) := by
  have hl : v.contents.length = v.len := by simp [FV.contents]; omega
  constructor
  · intro h
    have h0 : v.contents[0]? = some x := by rw [h]; rfl
    have : 0 < v.len := by rw [← hl, h]; simp
    rw [FV.contents, List.getElem?_take, if_pos this] at h0
    simp [front, read, h0]
  · intro h
    have hn : v.len = ys.length + 1 := by rw [← hl, h]; simp
    have h0 : v.contents[ys.length]? = some x := by rw [h]; simp
    rw [FV.contents, List.getElem?_take, if_pos (by omega)] at h0
    simp [back, read, hn, h0]

example : front ⟨[1, 2, 3, 9], 3⟩ = .ok 1 ∧ back ⟨[1, 2, 3, 9], 3⟩ = .ok 3 :=
  ⟨(C05_fixed_vector_front_back ⟨[1, 2, 3, 9], 3⟩ (by decide) 1 [2, 3]).1 rfl,
    (C05_fixed_vector_front_back ⟨[1, 2, 3, 9], 3⟩ (by decide) 3 [1, 2]).2 rfl⟩

end Verif.FixedVector
