import Verif.TupleUtils.MathModel
import Verif.TupleUtils.Props

/-!
# C76: arithmetic on tuples

The specification `Pointwise` says, cell by cell, what the memory must hold afterwards: the
`i`-th target holds the converted result of the operation on the *original* operands, and no
other cell has changed.
-/

namespace Verif.TupleUtils.Math
variable {V : Type}

/-- `s'` is `s` with the `i`-th cell of `ts` holding the converted result of the `i`-th
operation, whose operands were read from `s` -/
def Pointwise (conv : Nat → V → V) (op : V → V → Outcome V) (ts xs ys : List Nat) (s s' : Store V) : Prop :=
  (∀ (i t x y : Nat), ts[i]? = some t → xs[i]? = some x → ys[i]? = some y →
      ∃ v, op (s x) (s y) = .ok v ∧ s' t = conv t v) ∧
  ∀ c, c ∉ ts → s' c = s c

/-- every operation the specification asks for is defined -/
def Defined (op : V → V → Outcome V) (xs ys : List Nat) (s : Store V) : Prop :=
  ∀ (i x y : Nat), xs[i]? = some x → ys[i]? = some y → ∃ v, op (s x) (s y) = .ok v

/-- the three lists of cells, in step -/
def runSteps (conv : Nat → V → V) (op : V → V → Outcome V) : List Nat → List Nat → List Nat → Store V → Outcome (Store V)
  | t :: ts, x :: xs, y :: ys, s => do
    let v ← op (s x) (s y)
    runSteps conv op ts xs ys (assign conv t v s)
  | _, _, _, s => .ok s

theorem stmt_ok (f : Store V → Outcome (Store V)) (s : Store V) : stmt f (.ok s) = f s := rfl

theorem stmt_foldl {β : Type} (l : List β) (g : β → Store V → Outcome (Store V)) (f : Store V → Outcome (Store V))
    (s : Store V) :
    l.foldl (fun s x => stmt (g x) s) (f s) =
      (f s >>= fun s => l.foldl (fun s x => stmt (g x) s) (.ok s)) := by
  have : ∀ (l : List β) (o : Outcome (Store V)), l.foldl (fun s x => stmt (g x) s) o =
      (o >>= fun s => l.foldl (fun s x => stmt (g x) s) (.ok s)) := by
    intro l
    induction l with
    | nil => intro o; cases o <;> rfl
    | cons b l ih =>
      intro o
      cases o with
      | ok a => rfl
      | _ => exact ih _
  exact this l (f s)

/-- the loop over zipped lists is the same as stepping through them -/
theorem foldl_steps (conv : Nat → V → V) (op : V → V → Outcome V) (ts xs ys : List Nat) (s : Store V)
    (hx : ts.length = xs.length) (hy : ts.length = ys.length) :
    (ts.zip (xs.zip ys)).foldl (fun s p => stmt (fun s => do
      let v ← op (s p.2.1) (s p.2.2)
      .ok (assign conv p.1 v s)) s) (.ok s) = runSteps conv op ts xs ys s := by
  induction ts generalizing xs ys s with
  | nil => cases xs <;> rfl
  | cons t ts ih =>
    match xs, ys, hx, hy with
    | x :: xs, y :: ys, hx, hy =>
      rw [List.zip_cons_cons, List.zip_cons_cons, List.foldl_cons, stmt_ok]
      rw [stmt_foldl _ (fun p : Nat × Nat × Nat => fun s => do
        let v ← op (s p.2.1) (s p.2.2)
        .ok (assign conv p.1 v s)) (fun s => do
        let v ← op (s x) (s y)
        .ok (assign conv t v s)) s]
      rw [runSteps]
      cases op (s x) (s y) with
      | ok v => exact ih xs ys _ (by simpa using hx) (by simpa using hy)
      | _ => rfl

/-- Stepping is right as soon as no operand is read after it was overwritten by an earlier
step, and no target is written twice. -/
theorem runSteps_spec (conv : Nat → V → V) (op : V → V → Outcome V) (ts xs ys : List Nat) (s : Store V)
    (hx : ts.length = xs.length) (hy : ts.length = ys.length)
    (hnd : ts.Nodup)
    (ax : ∀ (i j t x : Nat), i < j → ts[i]? = some t → xs[j]? = some x → x ≠ t)
    (ay : ∀ (i j t y : Nat), i < j → ts[i]? = some t → ys[j]? = some y → y ≠ t)
    (hd : Defined op xs ys s) :
    ∃ s', runSteps conv op ts xs ys s = .ok s' ∧ Pointwise conv op ts xs ys s s' := by
  induction ts generalizing xs ys s with
  | nil =>
    exact ⟨s, by cases xs <;> rfl, by simp, fun _ _ => rfl⟩
  | cons t ts ih =>
    match xs, ys, hx, hy with
    | x :: xs, y :: ys, hx, hy =>
      obtain ⟨v, hv⟩ := hd 0 x y rfl rfl
      have keepx : ∀ (j x' : Nat), xs[j]? = some x' → assign conv t v s x' = s x' := by
        intro j x' h
        exact Function.update_of_ne (ax 0 (j + 1) t x' (by omega) rfl h) _ _
      have keepy : ∀ (j y' : Nat), ys[j]? = some y' → assign conv t v s y' = s y' := by
        intro j y' h
        exact Function.update_of_ne (ay 0 (j + 1) t y' (by omega) rfl h) _ _
      obtain ⟨s', hs', hp, hk⟩ := ih xs ys (assign conv t v s) (by simpa using hx) (by simpa using hy)
        (List.nodup_cons.1 hnd).2
        (fun i j t x hij h1 h2 => ax (i + 1) (j + 1) t x (by omega) h1 h2)
        (fun i j t y hij h1 h2 => ay (i + 1) (j + 1) t y (by omega) h1 h2)
        (fun i x' y' h1 h2 => by
          rw [keepx i x' h1, keepy i y' h2]
          exact hd (i + 1) x' y' h1 h2)
      refine ⟨s', by rw [runSteps, hv]; exact hs', ?_, ?_⟩
      · intro i t' x' y' ht hx' hy'
        cases i with
        | zero =>
          simp only [List.getElem?_cons_zero, Option.some.injEq] at ht hx' hy'
          subst ht hx' hy'
          refine ⟨v, hv, ?_⟩
          rw [hk _ (List.nodup_cons.1 hnd).1]
          exact Function.update_self _ _ _
        | succ i =>
          simp only [List.getElem?_cons_succ] at ht hx' hy'
          obtain ⟨w, hw, e⟩ := hp i t' x' y' ht hx' hy'
          rw [keepx i x' hx', keepy i y' hy'] at hw
          exact ⟨w, hw, e⟩
      · intro c hc
        rw [hk c (fun h => hc (List.mem_cons_of_mem _ h))]
        exact Function.update_of_ne (fun h => hc (by rw [h]; exact List.mem_cons_self)) _ _

/-- the first undefined operation makes the whole call undefined -/
theorem runSteps_undefined (conv : Nat → V → V) (op : V → V → Outcome V) (ts xs ys : List Nat) (s : Store V)
    (hx : ts.length = xs.length) (hy : ts.length = ys.length)
    (ax : ∀ (i j t x : Nat), i < j → ts[i]? = some t → xs[j]? = some x → x ≠ t)
    (ay : ∀ (i j t y : Nat), i < j → ts[i]? = some t → ys[j]? = some y → y ≠ t)
    (hnd : ¬ Defined op xs ys s) :
    ∀ s', runSteps conv op ts xs ys s ≠ .ok s' := by
  induction ts generalizing xs ys s with
  | nil =>
    have : xs = [] := by simpa using hx.symm
    subst this
    exact absurd (fun i x y h => by simp at h) hnd
  | cons t ts ih =>
    match xs, ys, hx, hy with
    | x :: xs, y :: ys, hx, hy =>
      intro s'
      rw [runSteps]
      cases hv : op (s x) (s y) with
      | ok v =>
        rw [Outcome.bind_ok]
        refine ih xs ys _ (by simpa using hx) (by simpa using hy)
          (fun i j t x hij h1 h2 => ax (i + 1) (j + 1) t x (by omega) h1 h2)
          (fun i j t y hij h1 h2 => ay (i + 1) (j + 1) t y (by omega) h1 h2) ?_ s'
        intro hd
        apply hnd
        intro i x' y' h1 h2
        cases i with
        | zero =>
          simp only [List.getElem?_cons_zero, Option.some.injEq] at h1 h2
          subst h1 h2
          exact ⟨v, hv⟩
        | succ i =>
          simp only [List.getElem?_cons_succ] at h1 h2
          have := hd i x' y' h1 h2
          rwa [assign, Function.update_of_ne (ax 0 (i + 1) t x' (by omega) rfl h1),
            Function.update_of_ne (ay 0 (i + 1) t y' (by omega) rfl h2)] at this
      | _ => simp

theorem zip_replicate (ts : List Nat) (c : Nat) (g : Nat × Nat × Nat → Store V → Outcome (Store V)) (o : Outcome (Store V)) :
    ts.foldl (fun s t => stmt (g (t, t, c)) s) o =
      (ts.zip (ts.zip (List.replicate ts.length c))).foldl (fun s p => stmt (g p) s) o := by
  induction ts generalizing o with
  | nil => rfl
  | cons t ts ih => exact ih _

theorem opEqual_eq (conv : Nat → V → V) (op : V → V → Outcome V) (lhs rhs : List Nat) (s : Store V)
    (h : lhs.length = rhs.length) : opEqual conv op lhs rhs s = runSteps conv op lhs lhs rhs s := by
  rw [opEqual, C68_tuple_zip _ _ h, C68_tuple_for_each, ← foldl_steps conv op lhs lhs rhs s rfl h]
  have : ∀ (l r : List Nat) (g : Nat × Nat × Nat → Store V → Outcome (Store V)) (o : Outcome (Store V)), l.length = r.length →
      (l.zip r).foldl (fun s p => stmt (g (p.1, p.1, p.2)) s) o =
        (l.zip (l.zip r)).foldl (fun s p => stmt (g p) s) o := by
    intro l
    induction l with
    | nil => intros; rfl
    | cons a l ih =>
      intro r g o h
      match r, h with
      | b :: r, h => exact ih r g _ (by simpa using h)
  exact this lhs rhs (fun p s => do
    let v ← op (s p.2.1) (s p.2.2)
    .ok (assign conv p.1 v s)) (.ok s) h

theorem opEqualScalar_eq (conv : Nat → V → V) (op : V → V → Outcome V) (lhs : List Nat) (c : Nat) (s : Store V) :
    opEqualScalar conv op lhs c s = runSteps conv op lhs lhs (List.replicate lhs.length c) s := by
  rw [opEqualScalar, C68_tuple_for_each, ← foldl_steps conv op lhs lhs _ s rfl (by simp)]
  exact zip_replicate lhs c (fun p s => do
    let v ← op (s p.2.1) (s p.2.2)
    .ok (assign conv p.1 v s)) (.ok s)

theorem opRight_eq (conv : Nat → V → V) (op : V → V → Outcome V) (tmp lhs : List Nat) (c : Nat) (s : Store V)
    (h : tmp.length = lhs.length) :
    opRight conv op tmp lhs c s = runSteps conv op tmp lhs (List.replicate lhs.length c) s := by
  rw [opRight, C68_tuple_zip _ _ h, C68_tuple_for_each,
    ← foldl_steps conv op tmp lhs _ s h (by simp [h])]
  have : ∀ (l r : List Nat) (g : Nat × Nat × Nat → Store V → Outcome (Store V)) (o : Outcome (Store V)), l.length = r.length →
      (l.zip r).foldl (fun s p => stmt (g (p.1, p.2, c)) s) o =
        (l.zip (r.zip (List.replicate r.length c))).foldl (fun s p => stmt (g p) s) o := by
    intro l
    induction l with
    | nil => intros; rfl
    | cons a l ih =>
      intro r g o h
      match r, h with
      | b :: r, h => exact ih r g _ (by simpa using h)
  exact this tmp lhs (fun p s => do
    let v ← op (s p.2.1) (s p.2.2)
    .ok (assign conv p.1 v s)) (.ok s) h

theorem opLeft_eq (conv : Nat → V → V) (op : V → V → Outcome V) (tmp rhs : List Nat) (c : Nat) (s : Store V)
    (h : tmp.length = rhs.length) :
    opLeft conv op tmp c rhs s = runSteps conv op tmp (List.replicate rhs.length c) rhs s := by
  rw [opLeft, C68_tuple_zip _ _ h, C68_tuple_for_each,
    ← foldl_steps conv op tmp _ rhs s (by simp [h]) h]
  have : ∀ (l r : List Nat) (g : Nat × Nat × Nat → Store V → Outcome (Store V)) (o : Outcome (Store V)), l.length = r.length →
      (l.zip r).foldl (fun s p => stmt (g (p.1, c, p.2)) s) o =
        (l.zip ((List.replicate r.length c).zip r)).foldl (fun s p => stmt (g p) s) o := by
    intro l
    induction l with
    | nil => intros; rfl
    | cons a l ih =>
      intro r g o h
      match r, h with
      | b :: r, h => exact ih r g _ (by simpa using h)
  exact this tmp rhs (fun p s => do
    let v ← op (s p.2.1) (s p.2.2)
    .ok (assign conv p.1 v s)) (.ok s) h

theorem opTuple_eq (conv : Nat → V → V) (op : V → V → Outcome V) (tmp lhs rhs : List Nat) (s : Store V)
    (hne : tmp ≠ []) (h1 : tmp.length = lhs.length) (h2 : tmp.length = rhs.length) :
    opTuple conv op tmp lhs rhs s = runSteps conv op tmp lhs rhs s := by
  rw [opTuple, C68_tuple_visit _ _ _ hne, ← foldl_steps conv op tmp lhs rhs s h1 h2]
  have hz : tmp.zip (lhs.zip rhs) = (List.range tmp.length).attach.map fun i =>
      (tmp[i.1]'(List.mem_range.1 i.2), lhs[i.1]'(h1 ▸ List.mem_range.1 i.2), rhs[i.1]'(h2 ▸ List.mem_range.1 i.2)) := by
    apply List.ext_getElem
    · simp [← h1, ← h2]
    · intro i a b
      simp
  rw [hz, List.foldl_map]
  conv => lhs; rw [← List.attach_map_subtype_val (List.range tmp.length), List.foldl_map]
  congr 1
  funext o i
  have := List.mem_range.1 i.2
  have t1 : i.1 < lhs.length := by omega
  have t2 : i.1 < rhs.length := by omega
  simp [List.getElem?_eq_getElem this, List.getElem?_eq_getElem t1, List.getElem?_eq_getElem t2]

/-- C76 for the four assignment forms with a tuple on the right, as far as it holds: if the
targets are distinct cells and no element of `rhs` is an *earlier* element of `lhs` (sharing
the same position, as in `t += t`, is fine), the call is defined exactly when every element
operation is, and then every element of `lhs` becomes the converted result of the operation on
the original operands and nothing else changes.  (Missing: operands that share cells at
different positions, see `C76_shared_fails`.) -/
theorem C76_op_equal_partial (conv : Nat → V → V) (op : V → V → Outcome V) (lhs rhs : List Nat) (s : Store V)
    (h : lhs.length = rhs.length) (hnd : lhs.Nodup)
    (ha : ∀ (i j t y : Nat), i < j → lhs[i]? = some t → rhs[j]? = some y → y ≠ t) :
    (Defined op lhs rhs s → ∃ s', opEqual conv op lhs rhs s = .ok s' ∧ Pointwise conv op lhs lhs rhs s s') ∧
    (¬ Defined op lhs rhs s → ∀ s', opEqual conv op lhs rhs s ≠ .ok s') := by
  have hl : ∀ (i j t x : Nat), i < j → lhs[i]? = some t → lhs[j]? = some x → x ≠ t := by
    intro i j t x hij h1 h2 e
    subst e
    obtain ⟨l1, e1⟩ := List.getElem?_eq_some_iff.1 h1
    obtain ⟨l2, e2⟩ := List.getElem?_eq_some_iff.1 h2
    exact (List.pairwise_iff_getElem.1 hnd i j l1 l2 hij) (e1.trans e2.symm)
  rw [opEqual_eq conv op lhs rhs s h]
  exact ⟨runSteps_spec conv op lhs lhs rhs s rfl h hnd hl ha,
    runSteps_undefined conv op lhs lhs rhs s rfl h hl ha⟩

/-- the same tuple on both sides -/
example : opEqual (V := Int) (fun _ => id) (fun a b => .ok (a + b)) [0, 1] [0, 1] (fun c => c + 1) =
    .ok (fun c => if c = 0 then 2 else if c = 1 then 4 else (c : Int) + 1) ∧
    ∀ (i j t y : Nat), i < j → [0, 1][i]? = some t → [0, 1][j]? = some y → y ≠ t := by
  constructor
  · rw [opEqual_eq _ _ _ _ _ rfl]
    simp only [runSteps, Outcome.bind_ok, assign, id]
    congr 1
    funext c
    by_cases h0 : c = 0
    · subst h0; rfl
    · by_cases h1 : c = 1
      · subst h1; rfl
      · rw [Function.update_of_ne h1, Function.update_of_ne h0, if_neg h0, if_neg h1]
  · intro i j t y hij h1 h2
    obtain ⟨l1, e1⟩ := List.getElem?_eq_some_iff.1 h1
    obtain ⟨l2, e2⟩ := List.getElem?_eq_some_iff.1 h2
    have l1' : i < 2 := l1
    have l2' : j < 2 := l2
    obtain rfl : i = 0 := by omega
    obtain rfl : j = 1 := by omega
    simp at e1 e2
    omega

/-- what a sequence of assignments `lhs[j] = op lhs[j] rhs[j]` gives when the operands may share
cells: operands overwritten before are read with their new value -/
def Sequential (conv : Nat → V → V) (op : V → V → Outcome V) (lhs rhs : List Nat) (s s' : Store V) : Prop :=
  (∀ (j t y : Nat), lhs[j]? = some t → rhs[j]? = some y →
    ∃ v, op (s t) (if y ∈ lhs.take j then s' y else s y) = .ok v ∧ s' t = conv t v) ∧
  ∀ c, c ∉ lhs → s' c = s c

theorem runSteps_shared (conv : Nat → V → V) (op : V → V → Outcome V) (lhs rhs : List Nat) (s s' : Store V)
    (h : lhs.length = rhs.length) (hnd : lhs.Nodup) :
    runSteps conv op lhs lhs rhs s = .ok s' ↔ Sequential conv op lhs rhs s s' := by
  induction lhs generalizing rhs s with
  | nil =>
    simp only [runSteps, Sequential, List.getElem?_nil, reduceCtorEq, false_imp_iff, implies_true, true_and,
      List.not_mem_nil, not_false_eq_true, forall_const, Outcome.ok.injEq]
    exact ⟨fun e c => by rw [e], fun e => (funext e).symm⟩
  | cons t ts ih =>
    match rhs, h with
    | y :: ys, h =>
      obtain ⟨ht, hnd⟩ := List.nodup_cons.1 hnd
      rw [runSteps]
      have key : ∀ v, op (s t) (s y) = .ok v → (Sequential conv op ts ys (assign conv t v s) s' ↔
          Sequential conv op (t :: ts) (y :: ys) s s') := by
        intro v hv
        have hself : assign conv t v s t = conv t v := Function.update_self _ _ _
        have hother : ∀ c, c ≠ t → assign conv t v s c = s c := fun c hc => Function.update_of_ne hc _ _
        have val : s' t = conv t v → ∀ j y', (if y' ∈ (t :: ts).take (j + 1) then s' y' else s y') =
            if y' ∈ ts.take j then s' y' else assign conv t v s y' := by
          intro ht' j y'
          by_cases hy : y' = t
          · subst hy
            rw [if_pos (by simp), if_neg (fun h => ht (List.mem_of_mem_take h)), hself, ht']
          · by_cases hm : y' ∈ ts.take j
            · rw [if_pos (by simp [hm]), if_pos hm]
            · rw [if_neg (by simp [hm, hy]), if_neg hm, hother y' hy]
        constructor
        · rintro ⟨hp, hk⟩
          have ht' : s' t = conv t v := by rw [hk t ht, hself]
          refine ⟨fun j t' y' h1 h2 => ?_, fun c hc => ?_⟩
          · cases j with
            | zero =>
              simp only [List.getElem?_cons_zero, Option.some.injEq] at h1 h2
              subst h1 h2
              exact ⟨v, by simpa using hv, ht'⟩
            | succ j =>
              simp only [List.getElem?_cons_succ] at h1 h2
              obtain ⟨w, hw, e⟩ := hp j t' y' h1 h2
              have hne : t' ≠ t := by rintro rfl; exact ht (List.mem_of_getElem? h1)
              refine ⟨w, ?_, e⟩
              rw [← hw, hother t' hne]
              rw [val ht' j y']
          · rw [hk c (fun h => hc (List.mem_cons_of_mem _ h)), hother c (fun h => hc (by simp [h]))]
        · rintro ⟨hp, hk⟩
          obtain ⟨w, hw, e⟩ := hp 0 t y rfl rfl
          have ht' : s' t = conv t v := by
            simp only [List.take_zero, List.not_mem_nil, if_false, hv, Outcome.ok.injEq] at hw
            rw [e, hw]
          refine ⟨fun j t' y' h1 h2 => ?_, fun c hc => ?_⟩
          · obtain ⟨w, hw, e⟩ := hp (j + 1) t' y' h1 h2
            have hne : t' ≠ t := by rintro rfl; exact ht (List.mem_of_getElem? h1)
            refine ⟨w, ?_, e⟩
            rw [← hw, hother t' hne]
            rw [val ht' j y']
          · by_cases hc' : c = t
            · subst hc'; rw [ht', hself]
            · rw [hother c hc']; exact hk c (by simp [hc, hc'])
      cases hv : op (s t) (s y) with
      | ok v =>
        rw [Outcome.bind_ok, ih ys _ (by simpa using h) hnd]
        exact key v hv
      | _ =>
        refine ⟨fun e => by simp at e, fun e => ?_⟩
        obtain ⟨w, hw, _⟩ := e.1 0 t y rfl rfl
        simp [hv] at hw

/-- C76 for the assignment forms, exactly, however the operands share cells: the call ends in the
store `s'` if and only if every element of `lhs` became the converted result of the operation on
its old value and on the value of the right operand at its turn (the new value, if that cell was
an earlier element of `lhs`), and nothing else changed. -/
theorem C76_op_equal_iff (conv : Nat → V → V) (op : V → V → Outcome V) (lhs rhs : List Nat) (s s' : Store V)
    (h : lhs.length = rhs.length) (hnd : lhs.Nodup) :
    opEqual conv op lhs rhs s = .ok s' ↔ Sequential conv op lhs rhs s s' := by
  rw [opEqual_eq conv op lhs rhs s h, runSteps_shared conv op lhs rhs s s' h hnd]

/-- two cells added crosswise -/
example : [0, 1].length = [1, 0].length ∧ [0, 1].Nodup ∧
    Sequential (V := Int) (fun _ => id) (fun a b => .ok (a + b)) [0, 1] [1, 0] (fun c => if c = 0 then 1 else 2)
      (fun c => if c = 0 then 3 else if c = 1 then 5 else 2) := by
  refine ⟨rfl, by decide, ?_, ?_⟩
  · intro j t y h1 h2
    match j, h1, h2 with
    | 0, h1, h2 => simp at h1 h2; subst h1 h2; simp
    | 1, h1, h2 => simp at h1 h2; subst h1 h2; simp
    | j + 2, h1, h2 => simp at h1
  · intro c hc
    simp at hc
    simp [hc]

/-- C76 for `t op= scalar`, exactly, also when the scalar is an element of the tuple: elements after
that one are combined with its new value, the others with its old one. -/
theorem C76_scalar_equal_iff (conv : Nat → V → V) (op : V → V → Outcome V) (lhs : List Nat) (c : Nat) (s s' : Store V)
    (hnd : lhs.Nodup) :
    opEqualScalar conv op lhs c s = .ok s' ↔
      (∀ (j t : Nat), lhs[j]? = some t →
        ∃ v, op (s t) (if c ∈ lhs.take j then s' c else s c) = .ok v ∧ s' t = conv t v) ∧
      ∀ c', c' ∉ lhs → s' c' = s c' := by
  rw [opEqualScalar_eq, runSteps_shared conv op lhs _ s s' (by simp) hnd, Sequential]
  refine and_congr_left fun _ => ⟨fun h j t hj => ?_, fun h j t y hj hy => ?_⟩
  · obtain ⟨l, _⟩ := List.getElem?_eq_some_iff.1 hj
    exact h j t c hj (by rw [List.getElem?_replicate, if_pos l])
  · obtain ⟨l, e⟩ := List.getElem?_eq_some_iff.1 hy
    rw [List.getElem_replicate] at e
    subst e
    exact h j t hj

/-- C76 for `t op= scalar`, as far as it holds: the scalar is not an element of the tuple
(or only its last one).  (Missing: a scalar that is an earlier element of the tuple, see
`C76_scalar_alias_fails`.) -/
theorem C76_scalar_equal_partial (conv : Nat → V → V) (op : V → V → Outcome V) (lhs : List Nat) (c : Nat) (s : Store V)
    (hnd : lhs.Nodup) (hc : c ∉ lhs.dropLast) :
    (Defined op lhs (List.replicate lhs.length c) s →
      ∃ s', opEqualScalar conv op lhs c s = .ok s' ∧
        Pointwise conv op lhs lhs (List.replicate lhs.length c) s s') ∧
    (¬ Defined op lhs (List.replicate lhs.length c) s → ∀ s', opEqualScalar conv op lhs c s ≠ .ok s') := by
  have hl : ∀ (i j t x : Nat), i < j → lhs[i]? = some t → lhs[j]? = some x → x ≠ t := by
    intro i j t x hij h1 h2 e
    subst e
    obtain ⟨l1, e1⟩ := List.getElem?_eq_some_iff.1 h1
    obtain ⟨l2, e2⟩ := List.getElem?_eq_some_iff.1 h2
    exact (List.pairwise_iff_getElem.1 hnd i j l1 l2 hij) (e1.trans e2.symm)
  have hr : ∀ (i j t y : Nat), i < j → lhs[i]? = some t → (List.replicate lhs.length c)[j]? = some y → y ≠ t := by
    intro i j t y hij h1 h2 e
    subst e
    obtain ⟨l2, e2⟩ := List.getElem?_eq_some_iff.1 h2
    rw [List.length_replicate] at l2
    rw [List.getElem_replicate] at e2
    subst e2
    obtain ⟨l1, e1⟩ := List.getElem?_eq_some_iff.1 h1
    apply hc
    rw [List.mem_iff_getElem]
    exact ⟨i, by rw [List.length_dropLast]; omega, by rw [List.getElem_dropLast, e1]⟩
  rw [opEqualScalar_eq]
  exact ⟨runSteps_spec conv op lhs lhs _ s rfl (by simp) hnd hl hr,
    runSteps_undefined conv op lhs lhs _ s rfl (by simp) hl hr⟩

/-- a tuple of three cells and a scalar in a fourth -/
example : [4, 7, 9].Nodup ∧ 2 ∉ [4, 7, 9].dropLast := by decide

/-- C76 fails: `divides_equal(t, get<0>(t))` (or any `op=` whose scalar is an element of the
tuple, which is taken by reference) uses the already overwritten element for the later ones:
`(4, 8) / 4` gives `(1, 8)`, not `(1, 2)`. -/
theorem C76_scalar_alias_fails :
    ∃ s', opEqualScalar (V := Int) (fun _ => id) (fun a b => if b = 0 then .ub else .ok (a / b)) [0, 1] 0
        (fun c => if c = 0 then 4 else 8) = .ok s' ∧ s' 0 = 1 ∧ s' 1 = 8 ∧
      ¬ Pointwise (V := Int) (fun _ => id) (fun a b => if b = 0 then .ub else .ok (a / b)) [0, 1] [0, 1] [0, 0]
        (fun c => if c = 0 then 4 else 8) s' := by
  refine ⟨_, rfl, rfl, rfl, fun h => ?_⟩
  obtain ⟨v, hv, e⟩ := h.1 1 1 1 0 rfl rfl rfl
  have : (8 : Int) = v := e
  subst this
  exact absurd hv (by decide)

/-- C76 fails for tuples of references: `plus_equal(std::tie(a,b), std::tie(b,a))` with
`a = 1`, `b = 2` gives `a = 3`, `b = 5`. -/
theorem C76_shared_fails :
    ∃ s', opEqual (V := Int) (fun _ => id) (fun a b => .ok (a + b)) [0, 1] [1, 0] (fun c => if c = 0 then 1 else 2) = .ok s' ∧
      s' 0 = 3 ∧ s' 1 = 5 ∧
      ¬ Pointwise (V := Int) (fun _ => id) (fun a b => .ok (a + b)) [0, 1] [0, 1] [1, 0]
        (fun c => if c = 0 then 1 else 2) s' := by
  refine ⟨_, rfl, rfl, rfl, fun h => ?_⟩
  obtain ⟨v, hv, e⟩ := h.1 1 1 1 0 rfl rfl rfl
  have h1 : (3 : Int) = v := Outcome.ok.inj hv
  have h2 : (5 : Int) = v := e
  omega

/-- **C76** The binary operators, for every number (at least one) and mixture of elements and
whatever cells the operands share: the new tuple holds the converted element results, the
operands are untouched, and the call is defined exactly when every element operation is. -/
theorem C76_operators (conv : Nat → V → V) (op : V → V → Outcome V) (tmp lhs rhs : List Nat) (c : Nat) (s : Store V)
    (hne : tmp ≠ []) (h1 : tmp.length = lhs.length) (h2 : tmp.length = rhs.length) (hnd : tmp.Nodup)
    (fl : ∀ x ∈ lhs, x ∉ tmp) (fr : ∀ y ∈ rhs, y ∉ tmp) (fc : c ∉ tmp) :
    let n := tmp.length
    ((Defined op lhs rhs s → ∃ s', opTuple conv op tmp lhs rhs s = .ok s' ∧ Pointwise conv op tmp lhs rhs s s') ∧
      (¬ Defined op lhs rhs s → ∀ s', opTuple conv op tmp lhs rhs s ≠ .ok s')) ∧
    ((Defined op lhs (List.replicate n c) s →
        ∃ s', opRight conv op tmp lhs c s = .ok s' ∧ Pointwise conv op tmp lhs (List.replicate n c) s s') ∧
      (¬ Defined op lhs (List.replicate n c) s → ∀ s', opRight conv op tmp lhs c s ≠ .ok s')) ∧
    ((Defined op (List.replicate n c) rhs s →
        ∃ s', opLeft conv op tmp c rhs s = .ok s' ∧ Pointwise conv op tmp (List.replicate n c) rhs s s') ∧
      (¬ Defined op (List.replicate n c) rhs s → ∀ s', opLeft conv op tmp c rhs s ≠ .ok s')) := by
  intro n
  have fresh : ∀ (xs : List Nat), (∀ x ∈ xs, x ∉ tmp) →
      ∀ (i j t x : Nat), i < j → tmp[i]? = some t → xs[j]? = some x → x ≠ t := by
    intro xs hf i j t x _ ht hx e
    exact hf x (List.mem_of_getElem? hx) (e ▸ List.mem_of_getElem? ht)
  have frep : ∀ x ∈ List.replicate n c, x ∉ tmp := by
    intro x hx
    rw [List.eq_of_mem_replicate hx]; exact fc
  rw [opTuple_eq conv op tmp lhs rhs s hne h1 h2, opRight_eq conv op tmp lhs c s h1,
    opLeft_eq conv op tmp rhs c s h2, ← h1, ← h2]
  exact ⟨⟨runSteps_spec conv op tmp lhs rhs s h1 h2 hnd (fresh _ fl) (fresh _ fr),
      runSteps_undefined conv op tmp lhs rhs s h1 h2 (fresh _ fl) (fresh _ fr)⟩,
    ⟨runSteps_spec conv op tmp lhs _ s h1 (by simp [n]) hnd (fresh _ fl) (fresh _ frep),
      runSteps_undefined conv op tmp lhs _ s h1 (by simp [n]) (fresh _ fl) (fresh _ frep)⟩,
    ⟨runSteps_spec conv op tmp _ rhs s (by simp [n]) h2 hnd (fresh _ frep) (fresh _ fr),
      runSteps_undefined conv op tmp _ rhs s (by simp [n]) h2 (fresh _ frep) (fresh _ fr)⟩⟩

/-- `x / t` with `t` a tuple of references to one cell twice -/
example : ([10, 11] : List Nat) ≠ [] ∧ [10, 11].Nodup ∧ (∀ x ∈ ([0, 0] : List Nat), x ∉ [10, 11]) ∧
    5 ∉ [10, 11] := by decide

/-- **C76** `fill` sets every element to the value, converted to the element's type, and
nothing else changes; the value may live in one cell of the tuple only if converting it to
that cell's type does not change it. -/
theorem C76_fill (conv : Nat → V → V) (t : List Nat) (c : Nat) (s : Store V)
    (hc : c ∈ t → conv c (s c) = s c) :
    ∃ s', fill conv t c s = .ok s' ∧ (∀ x ∈ t, s' x = conv x (s c)) ∧ ∀ x, x ∉ t → s' x = s x := by
  rw [fill, C68_tuple_for_each]
  induction t generalizing s with
  | nil => exact ⟨s, rfl, by simp, fun _ _ => rfl⟩
  | cons a t ih =>
    rw [List.foldl_cons, stmt_ok]
    have hkeep : assign conv a (s c) s c = s c := by
      rw [assign]
      by_cases h : c = a
      · subst h; rw [Function.update_self]; exact hc List.mem_cons_self
      · rw [Function.update_of_ne h]
    obtain ⟨s', h1, h2, h3⟩ := ih (assign conv a (s c) s) (fun h => by
      rw [hkeep]; exact hc (List.mem_cons_of_mem _ h))
    rw [hkeep] at h2
    refine ⟨s', h1, ?_, ?_⟩
    · intro x hx
      rcases List.mem_cons.1 hx with rfl | hx
      · by_cases hm : x ∈ t
        · exact h2 x hm
        · rw [h3 x hm, assign, Function.update_self]
      · exact h2 x hx
    · intro x hx
      rw [h3 x (fun h => hx (List.mem_cons_of_mem _ h)), assign,
        Function.update_of_ne (fun h => hx (by rw [h]; exact List.mem_cons_self))]

example : (3 : Nat) ∉ [0, 1, 2] := by decide

theorem print_eq (xs : List (List Char)) :
    print xs = '{' :: ((xs.flatMap fun x => [' ', '[', ' '] ++ x ++ [' ', ']']) ++ [' ', '}']) := by
  have : ∀ (xs : List (List Char)) (os : List Char),
      xs.foldl (fun os x => os ++ " [ ".toList ++ x ++ " ]".toList) os =
        os ++ xs.flatMap fun x => [' ', '[', ' '] ++ x ++ [' ', ']'] := by
    intro xs
    induction xs with
    | nil => intro os; simp
    | cons x xs ih => intro os; rw [List.foldl_cons, ih]; simp
  rw [print, C68_tuple_for_each, this]
  rfl

/-- **C76** The printed form determines the elements: two tuples whose element texts contain no
blank print alike only if they have the same number of elements and the same texts in the same
order. -/
theorem C76_print_injective (xs ys : List (List Char)) (hx : ∀ x ∈ xs, ' ' ∉ x) (hy : ∀ y ∈ ys, ' ' ∉ y)
    (h : print xs = print ys) : xs = ys := by
  rw [print_eq, print_eq, List.cons.injEq] at h
  replace h := h.2
  have split : ∀ (x y p q : List Char), ' ' ∉ x → ' ' ∉ y → x ++ ' ' :: p = y ++ ' ' :: q → x = y ∧ p = q := by
    intro x
    induction x with
    | nil =>
      intro y p q _ hy h
      cases y with
      | nil => simpa using h
      | cons b y => simp only [List.nil_append, List.cons_append, List.cons.injEq] at h; simp [← h.1] at hy
    | cons a x ih =>
      intro y p q hx hy h
      cases y with
      | nil => simp only [List.nil_append, List.cons_append, List.cons.injEq] at h; simp [h.1] at hx
      | cons b y =>
        simp only [List.cons_append, List.cons.injEq] at h
        obtain ⟨e, h⟩ := h
        obtain ⟨e1, e2⟩ := ih y p q (fun h => hx (List.mem_cons_of_mem _ h))
          (fun h => hy (List.mem_cons_of_mem _ h)) h
        exact ⟨by rw [e, e1], e2⟩
  induction xs generalizing ys with
  | nil =>
    cases ys with
    | nil => rfl
    | cons y ys => simp at h
  | cons x xs ih =>
    cases ys with
    | nil => simp at h
    | cons y ys =>
      simp only [List.flatMap_cons, List.append_assoc, List.cons_append, List.nil_append,
        List.cons.injEq, true_and] at h
      obtain ⟨e1, e2⟩ := split x y _ _ (hx x List.mem_cons_self) (hy y List.mem_cons_self) h
      rw [List.cons.injEq] at e2
      rw [e1, ih ys (fun x h => hx x (List.mem_cons_of_mem _ h)) (fun y h => hy y (List.mem_cons_of_mem _ h)) e2.2]

example : print ["1".toList, "-2.5".toList] = "{ [ 1 ] [ -2.5 ] }".toList := by decide

end Verif.TupleUtils.Math
