import Verif.FixedVector.Throwing
import Verif.FixedVector.Lemmas

/-!
# C109: elements whose assignment throws
-/

namespace Verif.FixedVector

namespace Spec

/-- how many element assignments an operation on a sequence of `len` elements makes -/
def cost (len : Nat) : Op T → Nat
  | .pushBack _ => 1
  | .popBack => 0
  | .clear => 0
  | .assignFill n _ => n
  | .assignList xs => xs.length
  | .resizeFill n _ => n - len
  | .insert pos _ => (len - pos) + 1
  | .insertFill pos n _ => if n = 0 then 0 else (len - pos) + n
  | .insertRange pos ys => if ys = [] then 0 else (len - pos) + ys.length
  | .insertIList pos ys => if ys = [] then 0 else (len - pos) + ys.length
  | .erase pos => len - (pos + 1)
  | .eraseRange a b => if a = b then 0 else len - b
  | .setAt _ _ => 1

/-- the position from which an insertion or removal acts -/
def actsFrom : Op T → Option Nat
  | .insert pos _ => some pos
  | .insertFill pos _ _ => some pos
  | .insertRange pos _ => some pos
  | .insertIList pos _ => some pos
  | .erase pos => some pos
  | .eraseRange a _ => some a
  | _ => none

/-- the operation only adds at the end, without being `push_back`, or only shortens from the end -/
def atEnd (len : Nat) : Op T → Prop
  | .popBack => True
  | .clear => True
  | .resizeFill _ _ => True
  | .insert pos _ => pos = len
  | .insertFill pos _ _ => pos = len
  | .insertRange pos _ => pos = len
  | .insertIList pos _ => pos = len
  | .erase pos => pos + 1 = len
  | .eraseRange _ b => b = len
  | _ => False

end Spec

/-! ### Lemmas -/

theorem applyAll_append (res : T → T) (v : FV T) (a b : List (Micro T)) :
    applyAll res v (a ++ b) = applyAll res (applyAll res v a) b := by simp [applyAll]

theorem applyAll_puts (res : T → T) (xs : List T) : ∀ (c : List T) (l i : Nat) (c' : List T),
    writeList c i xs = .ok c' → applyAll res ⟨c, l⟩ (puts i xs) = ⟨c', l⟩ := by
  induction xs with
  | nil => intro c l i c' h; simp [writeList] at h; simp [applyAll, puts, h]
  | cons x xs ih =>
    intro c l i c' h
    simp only [writeList, write] at h
    split at h
    · simp only [Outcome.bind_ok] at h
      have := ih _ l _ _ h
      simpa [applyAll, puts, Micro.apply] using this
    · simp at h

theorem applyAll_moves (res : T → T) : ∀ (n : Nat) (c : List T) (l src dst : Nat) (c' : List T),
    moveLoop res c src dst n = .ok c' → applyAll res ⟨c, l⟩ (moves src dst n) = ⟨c', l⟩ := by
  intro n
  induction n with
  | zero => intro c l src dst c' h; simp [moveLoop] at h; simp [applyAll, moves, h]
  | succ n ih =>
    intro c l src dst c' h
    simp only [moveLoop, read] at h
    rcases hx : c[src]? with _ | x
    · simp [hx] at h
    · simp only [hx, Outcome.bind_ok, write] at h
      split at h
      · simp only [Outcome.bind_ok] at h
        split at h
        · simp only [Outcome.bind_ok] at h
          have := ih _ l _ _ _ h
          simpa [applyAll, moves, Micro.apply, hx] using this
        · simp at h
      · simp at h

theorem bind_eq_ok {x : Outcome α} {f : α → Outcome β} {b : β} :
    (x >>= f) = .ok b ↔ ∃ a, x = .ok a ∧ f a = .ok b := by
  cases x <;> simp

theorem assert_eq_ok {b : Bool} {u : Unit} : Outcome.assert b = .ok u ↔ b = true := by
  cases b <;> simp

theorem shift_loop {res : T → T} {c c' : List T} {src last dst : Nat} (l : Nat)
    (h : shift (.loop res) c src last dst = .ok c') :
    applyAll res ⟨c, l⟩ (moves src dst (last - src)) = ⟨c', l⟩ := by
  unfold shift at h
  split at h
  · cases h
  · exact applyAll_moves res _ _ _ _ _ _ h

/-- the micro-steps of an insertion, from the two loops -/
theorem insertMicro_ok {res : T → T} {v : FV T} {pos : Nat} {ys : List T} {c1 c2 : List T} (hy : ys ≠ [])
    (h1 : shift (.loop res) v.cells pos v.len (pos + ys.length) = .ok c1) (h2 : writeList c1 pos ys = .ok c2) :
    applyAll res v (insertMicro v.len pos ys) = ⟨c2, v.len + ys.length⟩ := by
  have a := shift_loop v.len h1
  have b := applyAll_puts res ys c1 v.len pos c2 h2
  rw [insertMicro, if_neg hy, applyAll_append, applyAll_append, a, b]
  rfl

/-- positions of assignments -/
def Micro.target : Micro T → Option Nat
  | .put i _ => some i
  | .move _ d => some d
  | _ => none

theorem thrown_eq (res : T → T) : ∀ (ms : List (Micro T)) (v : FV T) (k : Nat) (y : Option T) (v' : FV T),
    thrown res v ms k y = some v' → v'.cells.length = v.cells.length ∧
      (v'.len = v.len ∨ Micro.setLen v'.len ∈ ms) := by
  intro ms
  induction ms with
  | nil => intro v k y v' h; simp [thrown] at h
  | cons m ms ih =>
    intro v k y v' h
    cases m with
    | setLen n =>
      simp only [thrown] at h
      obtain ⟨h1, h2⟩ := ih _ _ _ _ h
      refine ⟨h1, ?_⟩
      rcases h2 with h2 | h2
      · exact .inr (by simp [h2])
      · exact .inr (by simp [h2])
    | put i x =>
      cases k with
      | zero => simp only [thrown, Option.some.injEq] at h; subst h; cases y <;> simp [torn]
      | succ k =>
        simp only [thrown, Micro.apply] at h
        obtain ⟨h1, h2⟩ := ih _ _ _ _ h
        simp only [List.length_set] at h1
        exact ⟨h1, h2.imp id (List.mem_cons_of_mem _)⟩
    | move s d =>
      cases k with
      | zero => simp only [thrown, Option.some.injEq] at h; subst h; cases y <;> simp [torn]
      | succ k =>
        simp only [thrown] at h
        obtain ⟨h1, h2⟩ := ih _ _ _ _ h
        have e : ((Micro.move s d).apply res v).cells.length = v.cells.length ∧
            ((Micro.move s d).apply res v).len = v.len := by
          simp only [Micro.apply]; split <;> simp
        rw [e.1] at h1; rw [e.2] at h2
        exact ⟨h1, h2.imp id (List.mem_cons_of_mem _)⟩
    | build =>
      cases k with
      | zero => simp only [thrown, Option.some.injEq] at h; subst h; simp
      | succ k =>
        simp only [thrown, Micro.apply] at h
        obtain ⟨h1, h2⟩ := ih _ _ _ _ h
        exact ⟨h1, h2.imp id (List.mem_cons_of_mem _)⟩

/-- assignments at or beyond `p`, moving nothing from before `p`, followed by one change of length: a throw leaves
the length, and the cells before `p` -/
theorem thrown_from (res : T → T) (p n : Nat) : ∀ (ms : List (Micro T)),
    (∀ m ∈ ms, (∃ i x, m = .put i x ∧ p ≤ i) ∨ (∃ s d, m = .move s d ∧ p ≤ s ∧ p ≤ d)) →
    ∀ (v : FV T) (k : Nat) (y : Option T) (v' : FV T),
    thrown res v (ms ++ [.setLen n]) k y = some v' → v'.len = v.len ∧ v'.cells.take p = v.cells.take p := by
  intro ms
  have tk : ∀ (c : List T) (i : Nat) (x : T), p ≤ i → (c.set i x).take p = c.take p := by
    intro c i x h
    rw [List.take_set_of_le h]
  induction ms with
  | nil => intro _ v k y v' h; simp [thrown] at h
  | cons m ms ih =>
    intro hm v k y v' h
    have hms : ∀ m ∈ ms, _ := fun m h => hm m (List.mem_cons_of_mem _ h)
    rcases hm m (by simp) with ⟨i, x, rfl, hi⟩ | ⟨s, d, rfl, hs, hd⟩
    · cases k with
      | zero =>
        simp only [List.cons_append, thrown, Option.some.injEq] at h; subst h
        cases y <;> simp [torn, tk _ _ _ hi]
      | succ k =>
        simp only [List.cons_append, thrown, Micro.apply] at h
        obtain ⟨h1, h2⟩ := ih hms _ _ _ _ h
        exact ⟨h1, by rw [h2]; exact tk _ _ _ hi⟩
    · cases k with
      | zero =>
        simp only [List.cons_append, thrown, Option.some.injEq] at h; subst h
        cases y <;> simp [torn, tk _ _ _ hd]
      | succ k =>
        simp only [List.cons_append, thrown] at h
        obtain ⟨h1, h2⟩ := ih hms _ _ _ _ h
        have e : ((Micro.move s d).apply res v).cells.take p = v.cells.take p ∧
            ((Micro.move s d).apply res v).len = v.len := by
          simp only [Micro.apply]; split <;> simp [tk _ _ _ hs, tk _ _ _ hd]
        rw [e.1] at h2; rw [e.2] at h1
        exact ⟨h1, h2⟩

theorem mem_puts {i : Nat} {xs : List T} {m : Micro T} (h : m ∈ puts i xs) : ∃ j x, m = .put j x ∧ i ≤ j := by
  induction xs generalizing i with
  | nil => simp [puts] at h
  | cons x xs ih =>
    simp only [puts, List.mem_cons] at h
    rcases h with rfl | h
    · exact ⟨i, x, rfl, Nat.le_refl _⟩
    · obtain ⟨j, x, e, hj⟩ := ih h; exact ⟨j, x, e, by omega⟩

theorem mem_moves {s d n : Nat} {m : Micro T} (h : m ∈ moves s d n) :
    ∃ s' d', m = .move s' d' ∧ s ≤ s' ∧ d ≤ d' := by
  induction n generalizing s d with
  | zero => simp [moves] at h
  | succ n ih =>
    simp only [moves, List.mem_cons] at h
    rcases h with rfl | h
    · exact ⟨s, d, rfl, Nat.le_refl _, Nat.le_refl _⟩
    · obtain ⟨s', d', e, h1, h2⟩ := ih h; exact ⟨s', d', e, by omega, by omega⟩

/-- number of steps that can throw -/
def throwing (ms : List (Micro T)) : Nat := (ms.filter (fun m => match m with | .setLen _ => false | _ => true)).length

theorem thrown_isSome (res : T → T) : ∀ (ms : List (Micro T)) (v : FV T) (k : Nat) (y : Option T),
    (thrown res v ms k y).isSome ↔ k < throwing ms := by
  intro ms
  induction ms with
  | nil => intro v k y; simp [thrown, throwing]
  | cons m ms ih =>
    intro v k y
    cases m <;> cases k <;> simp [thrown, throwing] <;> simp [ih, throwing]

theorem throwing_append (a b : List (Micro T)) : throwing (a ++ b) = throwing a + throwing b := by simp [throwing]

theorem throwing_puts (i : Nat) (xs : List T) : throwing (puts i xs) = xs.length := by
  induction xs generalizing i with
  | nil => rfl
  | cons x xs ih => simpa [throwing, puts] using ih (i + 1)

theorem throwing_moves (s d n : Nat) : throwing (moves s d n : List (Micro T)) = n := by
  induction n generalizing s d with
  | zero => rfl
  | succ n ih => simpa [throwing, moves] using ih (s + 1) (d + 1)

theorem throwing_setLen (n : Nat) : throwing [(.setLen n : Micro T)] = 0 := rfl

theorem throwing_insert (len pos : Nat) (ys : List T) :
    throwing (insertMicro len pos ys) = if ys = [] then 0 else (len - pos) + ys.length := by
  unfold insertMicro
  split
  · rfl
  · rw [throwing_append, throwing_append, throwing_moves, throwing_puts, throwing_setLen]; omega

theorem thrown_puts (res : T → T) (xs : List T) (rest : List (Micro T)) : ∀ (c : List T) (l i k : Nat) (y : Option T),
    k < xs.length → i + xs.length ≤ c.length →
    thrown res ⟨c, l⟩ (puts i xs ++ rest) k y = some (torn ⟨c.take i ++ xs.take k ++ c.drop (i + k), l⟩ (i + k) y) := by
  induction xs with
  | nil => intro c l i k y h; simp at h
  | cons x xs ih =>
    intro c l i k y h hl
    simp only [List.length_cons] at h hl
    cases k with
    | zero => simp [puts, thrown]
    | succ k =>
      simp only [puts, List.cons_append, thrown, Micro.apply]
      rw [ih _ l (i + 1) k y (by omega) (by simp; omega)]
      have e : (c.set i x).take (i + 1) ++ xs.take k ++ (c.set i x).drop (i + 1 + k) =
          c.take i ++ (x :: xs).take (k + 1) ++ c.drop (i + (k + 1)) := by
        rw [List.take_succ_cons, List.drop_set_of_lt (by omega), show i + 1 + k = i + (k + 1) by omega,
          List.take_add_one]
        simp [List.take_set_of_le, show i < c.length by omega]
      rw [e, show i + 1 + k = i + (k + 1) by omega]

/-! ### C109 -/

/-- **C109** When nothing throws, carrying out the effects one after the other gives exactly what the operation
gives: for every operation, every vector, and whatever moving leaves behind. -/
theorem C109_complete {T : Type} (res : T → T) (v v' : FV T) (op : Op T) (r : Option Nat)
    (h : step (.loop res) v op = .ok (v', r)) : applyAll res v (effects v.len op) = v' := by
  cases op with
  | pushBack x =>
    simp only [step, pushBack, bind_eq_ok, write] at h
    obtain ⟨w, ⟨_, _, c, hc, hw⟩, h⟩ := h
    split at hc <;> simp at hc hw h
    obtain ⟨rfl, -⟩ := h; subst hc; subst hw; rfl
  | popBack =>
    simp [step, popBack] at h
    obtain ⟨rfl, -⟩ := h
    simp only [effects]; split <;> simp [applyAll, Micro.apply, *]
  | clear =>
    simp [step, clear] at h
    obtain ⟨rfl, -⟩ := h
    rfl
  | assignFill n x =>
    simp only [step, assignFill, bind_eq_ok] at h
    obtain ⟨w, ⟨_, _, c, hc, hw⟩, h⟩ := h
    simp at hw h
    obtain ⟨rfl, -⟩ := h; subst hw
    exact applyAll_puts res _ _ n 0 _ hc
  | assignList xs =>
    simp only [step, assignList, bind_eq_ok] at h
    obtain ⟨w, ⟨_, _, c, hc, hw⟩, h⟩ := h
    simp at hw h
    obtain ⟨rfl, -⟩ := h; subst hw
    exact applyAll_puts res _ _ xs.length 0 _ hc
  | resizeFill n x =>
    simp only [step, resizeFill, bind_eq_ok] at h
    obtain ⟨w, ⟨_, _, c, hc, hw⟩, h⟩ := h
    simp at hw h
    obtain ⟨rfl, -⟩ := h; subst hw
    rw [effects, applyAll_append, applyAll_puts res _ v.cells v.len v.len _ hc]
    rfl
  | insert pos x =>
    simp only [step, insertArg, bind_eq_ok, validate, Arg.deref] at h
    obtain ⟨w, ⟨_, _, d, ⟨_, _, hd⟩, c1, h1, x', hx, c2, h2, hw⟩, h⟩ := h
    simp at hd hx hw h
    obtain ⟨rfl, -⟩ := h; subst hd; subst hx; subst hw
    exact insertMicro_ok (by simp) h1 (by simp [writeList, h2])
  | insertFill pos n x =>
    simp only [step, insertFill, bind_eq_ok, validate] at h
    obtain ⟨w, ⟨_, _, d, ⟨_, _, hd⟩, hw⟩, h⟩ := h
    simp at hd h
    obtain ⟨rfl, -⟩ := h; subst hd
    split at hw
    · rename_i h0; subst h0; simp at hw; subst hw; rfl
    · rename_i h0
      simp only [bind_eq_ok] at hw
      obtain ⟨c1, h1, c2, h2, hw⟩ := hw
      simp at hw; subst hw
      simpa [effects] using insertMicro_ok (ys := List.replicate n x) (by simpa using h0) (by simpa using h1) h2
  | insertRange pos ys =>
    simp only [step, insertRange, bind_eq_ok, validate] at h
    obtain ⟨w, ⟨_, _, d, ⟨_, _, hd⟩, hw⟩, h⟩ := h
    simp at hd h
    obtain ⟨rfl, -⟩ := h; subst hd
    split at hw
    · rename_i h0; simp at hw h0; subst hw h0; rfl
    · rename_i h0
      simp only [bind_eq_ok] at hw
      obtain ⟨c1, h1, c2, h2, hw⟩ := hw
      simp at hw; subst hw
      exact insertMicro_ok (by simpa using h0) h1 h2
  | insertIList pos ys =>
    simp only [step, insertIList, bind_eq_ok] at h
    obtain ⟨w, ⟨_, _, hw⟩, h⟩ := h
    simp at h
    obtain ⟨rfl, -⟩ := h
    split at hw
    · rename_i h0; simp at hw h0; subst hw h0; rfl
    · rename_i h0
      simp only [bind_eq_ok] at hw
      obtain ⟨c1, h1, c2, h2, hw⟩ := hw
      simp at hw; subst hw
      exact insertMicro_ok (by simpa using h0) h1 h2
  | erase pos =>
    simp only [step, erase, bind_eq_ok] at h
    obtain ⟨w, hw, h⟩ := h
    simp at h
    obtain ⟨rfl, -⟩ := h
    rw [effects]
    split at hw
    · simp at hw; subst hw; simp [applyAll, *]
    · rename_i h0
      rw [if_neg h0]
      simp only [bind_eq_ok, validate] at hw
      obtain ⟨d, ⟨_, _, hd⟩, hw⟩ := hw
      simp only [Outcome.ok.injEq] at hd; subst hd
      split at hw
      · rename_i h1
        obtain ⟨c, hc, hw⟩ := bind_eq_ok.mp hw
        simp only [Outcome.ok.injEq] at hw; subst hw
        rw [if_pos h1, applyAll_append, shift_loop v.len hc]; rfl
      · rename_i h1
        rw [if_neg h1]
        simp only [Outcome.bind_ok, Outcome.ok.injEq] at hw; subst hw; rfl
  | eraseRange a b =>
    simp only [step, eraseRange, bind_eq_ok] at h
    obtain ⟨w, hw, h⟩ := h
    simp at h
    obtain ⟨rfl, -⟩ := h
    rw [effects]
    split at hw
    · simp at hw; subst hw; simp [applyAll, *]
    · rename_i h0
      rw [if_neg h0]
      split at hw
      · rename_i h1
        simp at hw; subst hw; simp [applyAll, h1]
      · rename_i h1
        rw [if_neg h1]
        split at hw
        · cases hw
        · simp only [bind_eq_ok, validate] at hw
          obtain ⟨d, ⟨_, _, hd⟩, l, ⟨_, _, hl⟩, hw⟩ := hw
          simp only [Outcome.ok.injEq] at hd hl; subst hd; subst hl
          split at hw
          · rename_i h2
            obtain ⟨c, hc, hw⟩ := bind_eq_ok.mp hw
            simp only [Outcome.ok.injEq] at hw; subst hw
            rw [if_pos h2, applyAll_append, shift_loop v.len hc]; rfl
          · rename_i h2
            rw [if_neg h2]
            simp only [Outcome.bind_ok, Outcome.ok.injEq] at hw; subst hw; rfl
  | setAt i x =>
    simp only [step, setAt, bind_eq_ok, write] at h
    obtain ⟨w, ⟨c, hc, hw⟩, h⟩ := h
    split at hc <;> simp at hc hw h
    obtain ⟨rfl, -⟩ := h; subst hc; subst hw; rfl

example : step (.loop (fun _ => 0)) ⟨[1, 2, 3, 4], 4⟩ (.erase 1) = .ok (⟨[1, 3, 4, 0], 3⟩, some 1) ∧
    applyAll (fun _ => 0) ⟨[1, 2, 3, 4], 4⟩ (effects 4 (.erase 1)) = ⟨[1, 3, 4, 0], 3⟩ := by decide

/-- **C109** An operation can be interrupted by a throw after `k` successful element assignments exactly when it
makes more than `k`: one for `push_back`, as many as new elements for `assign` and `resize`, for an insertion the new
elements and all behind the position, for a removal all behind the removed ones. -/
theorem C109_cost_iff {T : Type} (res : T → T) (v : FV T) (op : Op T) (ha : Spec.positionsValid v.contents op)
    (hv : v.len ≤ v.cells.length) (k : Nat) (y : Option T) :
    (thrown res v (effects v.len op) k y).isSome ↔ k < Spec.cost v.len op := by
  have hl : v.contents.length = v.len := by simp [FV.contents]; omega
  rw [thrown_isSome]
  have key : throwing (effects v.len op) = Spec.cost v.len op := by
    cases op with
    | pushBack x => rfl
    | popBack => simp only [effects, Spec.cost]; split <;> rfl
    | clear => rfl
    | assignFill n x =>
      have := throwing_puts 0 (List.replicate n x)
      simpa [effects, Spec.cost, throwing] using this
    | assignList xs =>
      have := throwing_puts 0 xs
      simpa [effects, Spec.cost, throwing] using this
    | resizeFill n x =>
      rw [effects, throwing_append, throwing_puts, throwing_setLen]; simp [Spec.cost]
    | insert pos x => rw [effects, throwing_insert]; simp [Spec.cost]
    | insertFill pos n x => rw [effects, throwing_insert]; simp [Spec.cost]
    | insertRange pos ys => rw [effects, throwing_insert]; rfl
    | insertIList pos ys => rw [effects, throwing_insert]; rfl
    | erase pos =>
      simp only [Spec.positionsValid, hl] at ha
      rw [effects, if_neg (by omega), throwing_append, throwing_setLen]
      split
      · rw [throwing_moves]; rfl
      · rw [Spec.cost]; simp [throwing]; omega
    | eraseRange a b =>
      simp only [Spec.positionsValid, hl] at ha
      rw [effects, Spec.cost]
      split
      · split
        · rfl
        · simp [throwing]; omega
      · split
        · rfl
        · rw [throwing_append, throwing_setLen]
          split
          · rw [throwing_moves]; rfl
          · simp [throwing]; omega
    | setAt i x => rfl
  rw [key]

example : Spec.cost 4 (.insert 1 (9 : Nat)) = 4 ∧ Spec.cost 4 (.erase 3 : Op Nat) = 0 ∧
    (thrown id ⟨[1, 2, 3, 4, 0], 4⟩ (effects 4 (.insert 1 9)) 3 none).isSome = true ∧
    (thrown id ⟨[1, 2, 3, 4, 0], 4⟩ (effects 4 (.insert 1 9)) 4 none).isSome = false := by decide

/-- **C109** Basic guarantee: wherever an operation within its documented range is interrupted, and whatever the
throwing assignment leaves in its target, the vector is still one of the same capacity with a size within it; so it
can be cleared, assigned to or destroyed as usual. -/
theorem C109_basic {T : Type} (res : T → T) (v v' : FV T) (op : Op T)
    (hv : v.len ≤ v.cells.length) (ha : Spec.allowed v.cells.length v.contents op) (k : Nat) (y : Option T)
    (h : thrown res v (effects v.len op) k y = some v') :
    v'.cells.length = v.cells.length ∧ v'.len ≤ v'.cells.length := by
  obtain ⟨h1, h2⟩ := thrown_eq res _ _ _ _ _ h
  refine ⟨h1, ?_⟩
  rw [h1]
  have hl : v.contents.length = v.len := by simp [FV.contents]; omega
  rcases h2 with h2 | h2
  · omega
  · generalize v'.len = n at h2
    obtain ⟨hp, hf⟩ := ha
    unfold Spec.fits at hf
    have np : ∀ i (xs : List T), (.setLen n : Micro T) ∉ puts i xs := fun i xs h => by
      obtain ⟨_, _, e, _⟩ := mem_puts h; cases e
    have nm : ∀ s d m, (.setLen n : Micro T) ∉ moves s d m := fun s d m h => by
      obtain ⟨_, _, e, _⟩ := mem_moves h; cases e
    have ins : ∀ pos (ys : List T), (.setLen n : Micro T) ∈ insertMicro v.len pos ys → n = v.len + ys.length := by
      intro pos ys h
      unfold insertMicro at h
      split at h
      · simp at h
      · simp only [List.mem_append, np, nm, false_or, List.mem_singleton, Micro.setLen.injEq] at h
        exact h
    cases op with
    | pushBack x => simp [effects, Spec.result, hl] at h2 hf; omega
    | popBack =>
      simp only [effects] at h2
      split at h2
      · simp at h2
      · simp at h2; omega
    | clear => simp [effects] at h2; omega
    | assignFill m x => simp [effects, np, Spec.result] at h2 hf; omega
    | assignList xs => simp [effects, np, Spec.result] at h2 hf; omega
    | resizeFill m x =>
      simp [effects, np, Spec.result, hl] at h2 hf; omega
    | insert pos x =>
      have := ins _ _ h2
      simp [Spec.result, hl, Spec.positionsValid] at this hf hp; omega
    | insertFill pos m x =>
      have := ins _ _ h2
      simp [Spec.result, hl, Spec.positionsValid] at this hf hp; omega
    | insertRange pos ys =>
      have := ins _ _ h2
      simp [Spec.result, hl, Spec.positionsValid] at this hf hp; omega
    | insertIList pos ys =>
      have := ins _ _ h2
      simp [Spec.result, hl, Spec.positionsValid] at this hf hp; omega
    | erase pos =>
      simp only [effects] at h2
      split at h2
      · simp at h2
      · split at h2 <;> simp [nm] at h2 <;> omega
    | eraseRange a b =>
      simp only [effects] at h2
      split at h2
      · simp at h2
      · split at h2
        · simp at h2
        · split at h2 <;> simp [nm] at h2 <;> omega
    | setAt i x => simp [effects] at h2

example : thrown id ⟨[1, 2, 3, 0], 3⟩ (effects 3 (.insert 0 9)) 2 (some 7) = some ⟨[1, 1, 1, 7], 3⟩ := by decide

/-- **C109** Interrupted insertions and removals have not changed the size, nor any element before the position they
act from. -/
theorem C109_prefix {T : Type} (res : T → T) (v v' : FV T) (op : Op T) (p : Nat)
    (hv : v.len ≤ v.cells.length) (ha : Spec.allowed v.cells.length v.contents op) (hp : Spec.actsFrom op = some p)
    (k : Nat) (y : Option T) (h : thrown res v (effects v.len op) k y = some v') :
    v'.len = v.len ∧ v'.contents.take p = v.contents.take p := by
  have hl : v.contents.length = v.len := by simp [FV.contents]; omega
  have ins : ∀ (ys : List T), thrown res v (insertMicro v.len p ys) k y = some v' →
      v'.len = v.len ∧ v'.cells.take p = v.cells.take p := by
    intro ys h
    unfold insertMicro at h
    split at h
    · simp [thrown] at h
    · refine thrown_from res p _ _ ?_ _ _ _ _ h
      intro m hm
      rcases List.mem_append.mp hm with hm | hm
      · obtain ⟨s, d, e, h1, h2⟩ := mem_moves hm
        exact .inr ⟨s, d, e, h1, by omega⟩
      · exact .inl (mem_puts hm)
  have main : v'.len = v.len ∧ v'.cells.take p = v.cells.take p := by
    cases op with
    | insert pos x => cases hp; exact ins _ h
    | insertFill pos m x => cases hp; exact ins _ h
    | insertRange pos ys => cases hp; exact ins _ h
    | insertIList pos ys => cases hp; exact ins _ h
    | erase pos =>
      cases hp
      simp only [effects] at h
      split at h
      · simp [thrown] at h
      · refine thrown_from res p _ _ ?_ _ _ _ _ h
        intro m hm
        split at hm
        · obtain ⟨s, d, e, h1, h2⟩ := mem_moves hm
          exact .inr ⟨s, d, e, by omega, h2⟩
        · simp at hm
    | eraseRange a b =>
      cases hp
      have := ha.1
      simp only [Spec.positionsValid] at this
      simp only [effects] at h
      split at h
      · simp [thrown] at h
      · split at h
        · simp [thrown] at h
        · refine thrown_from res p _ _ ?_ _ _ _ _ h
          intro m hm
          split at hm
          · obtain ⟨s, d, e, h1, h2⟩ := mem_moves hm
            exact .inr ⟨s, d, e, by omega, h2⟩
          · simp at hm
    | _ => cases hp
  refine ⟨main.1, ?_⟩
  simp only [FV.contents, List.take_take, main.1]
  rw [Nat.min_comm, ← List.take_take, ← List.take_take, main.2]

example : thrown (fun _ => 0) ⟨[1, 2, 3, 4], 4⟩ (effects 4 (.erase 1)) 1 none = some ⟨[1, 3, 0, 4], 4⟩ := by decide

/-- **C109** Strong guarantee, where it holds: operations that only add at the end (other than `push_back`) or only
remove there leave the vector's size and elements as they were, whatever the throwing assignment leaves in its
target. -/
theorem C109_strong_partial {T : Type} (res : T → T) (v v' : FV T) (op : Op T)
    (hv : v.len ≤ v.cells.length) (ha : Spec.allowed v.cells.length v.contents op) (he : Spec.atEnd v.len op)
    (k : Nat) (y : Option T) (h : thrown res v (effects v.len op) k y = some v') :
    v'.len = v.len ∧ v'.contents = v.contents := by
  have hl : v.contents.length = v.len := by simp [FV.contents]; omega
  have none_of : ∀ {p}, Spec.cost v.len op = 0 → p := by
    intro p h0
    have := (C109_cost_iff res v op ha.1 hv k y).mp (by simp [h])
    omega
  have pre : ∀ p, v.len ≤ p → Spec.actsFrom op = some p → v'.len = v.len ∧ v'.contents = v.contents := by
    intro p hle hp
    obtain ⟨h1, h2⟩ := C109_prefix res v v' op p hv ha hp k y h
    have hb := C109_basic res v v' op hv ha k y h
    have hl' : v'.contents.length = v'.len := by simp [FV.contents]; omega
    rw [List.take_of_length_le (by omega), List.take_of_length_le (by omega)] at h2
    exact ⟨h1, h2⟩
  cases op with
  | popBack => exact none_of rfl
  | clear => exact none_of rfl
  | resizeFill n x =>
    have := thrown_from res v.len n _ (fun m hm => .inl (mem_puts hm)) _ _ _ _ h
    exact ⟨this.1, by simp only [FV.contents, this.1, this.2]⟩
  | insert pos x => exact pre pos (by simp [Spec.atEnd] at he; omega) rfl
  | insertFill pos n x => exact pre pos (by simp [Spec.atEnd] at he; omega) rfl
  | insertRange pos ys => exact pre pos (by simp [Spec.atEnd] at he; omega) rfl
  | insertIList pos ys => exact pre pos (by simp [Spec.atEnd] at he; omega) rfl
  | erase pos => exact none_of (by simp [Spec.atEnd] at he; simp [Spec.cost]; omega)
  | eraseRange a b =>
    exact none_of (by simp [Spec.atEnd] at he; simp [Spec.cost, he])
  | _ => exact he.elim

example : thrown id ⟨[1, 2, 0, 0], 2⟩ (effects 2 (.insertRange 2 [8, 9])) 1 (some 7) = some ⟨[1, 2, 8, 7], 2⟩ ∧
    (⟨[1, 2, 8, 7], 2⟩ : FV Nat).contents = [1, 2] := by decide

/-- **C109** `push_back` does not have it: if storing the element throws, the size has already grown by one, and the
vector ends with whatever the cell behind the old end held (or with what the throwing assignment left there);
`pop_back` then restores the vector. -/
theorem C109_push_back {T : Type} (res : T → T) (v v' : FV T) (x : T) (hv : v.len < v.cells.length) (k : Nat)
    (y : Option T) (h : thrown res v (effects v.len (.pushBack x)) k y = some v') :
    v'.len = v.len + 1 ∧ v'.contents = v.contents ++ [y.getD v.cells[v.len]] ∧ popBack v' = ⟨v'.cells, v.len⟩ ∧
      (popBack v').contents = v.contents := by
  cases k with
  | succ k => simp [effects, thrown] at h
  | zero =>
    simp only [effects, thrown, Option.some.injEq] at h
    subst h
    cases y with
    | none =>
      simp only [torn, FV.contents, popBack, Nat.add_one_ne_zero, if_false, Option.getD_none, true_and]
      refine ⟨?_, ?_, ?_⟩
      · rw [List.take_succ_eq_append_getElem hv]
      · simp
      · simp
    | some y =>
      simp only [torn, FV.contents, popBack, Nat.add_one_ne_zero, if_false, Option.getD_some, true_and]
      refine ⟨?_, ?_, ?_⟩
      · rw [List.take_succ_eq_append_getElem (by simpa using hv), List.take_set_of_le (Nat.le_refl _)]
        simp
      · simp
      · simp [List.take_set_of_le]

example : thrown id ⟨[1, 2, 5], 2⟩ (effects 2 (.pushBack 9)) 0 none = some ⟨[1, 2, 5], 3⟩ := by decide

/-- **C109** Violated: a `push_back` that throws leaves the vector one element longer, holding at its end a value that
was removed from it earlier. -/
theorem C109_push_back_fails : ∃ (v v' : FV Nat),
    run (.loop id) ⟨[0, 0, 0], 0⟩ [.pushBack 1, .pushBack 2, .popBack] = .ok v ∧ v.contents = [1] ∧
    thrown id v (effects v.len (.pushBack 9)) 0 none = some v' ∧ v'.contents = [1, 2] :=
  ⟨⟨[1, 2, 0], 1⟩, ⟨[1, 2, 0], 2⟩, by decide⟩

/-- **C109** `emplace_back`: a constructor that throws leaves the vector exactly as it was; the assignment of the
constructed element behaves as in `push_back`. -/
theorem C109_emplace_back {T : Type} (res : T → T) (v : FV T) (x : T) (y : Option T) :
    thrown res v (emplaceEffects v.len x) 0 y = some v ∧
    (∀ k, thrown res v (emplaceEffects v.len x) (k + 1) y = thrown res v (effects v.len (.pushBack x)) k y) ∧
    applyAll res v (emplaceEffects v.len x) = applyAll res v (effects v.len (.pushBack x)) := by
  refine ⟨rfl, fun k => ?_, rfl⟩
  simp [emplaceEffects, effects, thrown, Micro.apply]

example : thrown id ⟨[1, 2, 5], 2⟩ (emplaceEffects 2 9) 1 none = some ⟨[1, 2, 5], 3⟩ := by decide

/-- **C109** An element assigned through `v[i]` that throws: the other elements and the size are as they were, and if
the element's own assignment has no effect when it throws, so is the vector. -/
theorem C109_set_at {T : Type} (res : T → T) (v v' : FV T) (i : Nat) (x : T) (k : Nat) (y : Option T)
    (h : thrown res v (effects v.len (.setAt i x)) k y = some v') :
    v'.len = v.len ∧ (∀ j : Nat, j ≠ i → v'.contents[j]? = v.contents[j]?) ∧ (y = none → v' = v) := by
  cases k with
  | succ k => simp [effects, thrown] at h
  | zero =>
    simp only [effects, thrown, Option.some.injEq] at h
    subst h
    cases y with
    | none => simp [torn]
    | some y =>
      refine ⟨rfl, fun j hj => ?_, by simp⟩
      simp only [torn, FV.contents, List.getElem?_take, List.getElem?_set]
      rw [if_neg (fun e : i = j => hj e.symm)]

example : thrown id ⟨[1, 2, 5], 2⟩ (effects 2 (.setAt 0 9)) 0 (some 7) = some ⟨[7, 2, 5], 2⟩ := by decide

/-- **C109** An interrupted `assign` leaves the vector with the new size, holding the values stored so far and behind
them what the cells held, be it elements of the vector or values removed from it long ago. -/
theorem C109_assign {T : Type} (res : T → T) (v : FV T) (xs : List T) (hx : xs.length ≤ v.cells.length) (k : Nat)
    (hk : k < xs.length) :
    ∃ v', thrown res v (effects v.len (.assignList xs)) k none = some v' ∧ v'.len = xs.length ∧
      v'.contents = xs.take k ++ (v.cells.drop k).take (xs.length - k) := by
  have := thrown_puts res xs [] v.cells xs.length 0 k none hk (by omega)
  simp only [List.append_nil, Nat.zero_add, List.take_zero, List.nil_append] at this
  refine ⟨_, this, rfl, ?_⟩
  simp only [torn, FV.contents]
  rw [List.take_append, List.take_take, List.length_take]
  congr 2 <;> omega

/-- **C109** The same for the form of `assign` that repeats one value. -/
theorem C109_assign_fill {T : Type} (res : T → T) (v : FV T) (n : Nat) (x : T) (y : Option T) (k : Nat) :
    thrown res v (effects v.len (.assignFill n x)) k y =
      thrown res v (effects v.len (.assignList (List.replicate n x))) k y := by
  simp [effects]

example : thrown id ⟨[1, 2, 5, 6], 2⟩ (effects 2 (.assignList [7, 8, 9])) 1 none = some ⟨[7, 2, 5, 6], 3⟩ := by decide

/-- **C109** Violated: after an interrupted `assign`, and already when its very first assignment throws, the vector
holds values that were no longer in it. -/
theorem C109_assign_fails : ∃ (v v' : FV Nat),
    run (.loop id) ⟨[0, 0, 0], 0⟩ [.assignList [4, 5, 6], .clear] = .ok v ∧ v.contents = [] ∧
    thrown id v (effects v.len (.assignList [1, 2, 3])) 0 none = some v' ∧ v'.contents = [4, 5, 6] :=
  ⟨⟨[4, 5, 6], 0⟩, ⟨[4, 5, 6], 3⟩, by decide⟩

/-- **C109** Violated: an interrupted `erase` has lost the removed element and holds another twice or moved-from. -/
theorem C109_erase_fails :
    (∃ v' : FV Nat, thrown id ⟨[1, 2, 3, 4], 4⟩ (effects 4 (.erase 0)) 1 none = some v' ∧
      v'.contents = [2, 2, 3, 4]) ∧
    (∃ v' : FV Nat, thrown (fun _ => 0) ⟨[1, 2, 3, 4], 4⟩ (effects 4 (.erase 0)) 1 none = some v' ∧
      v'.contents = [2, 0, 3, 4]) := by decide

/-- **C109** Violated: an interrupted `insert` before the end has lost elements. -/
theorem C109_insert_fails :
    ∃ v' : FV Nat, thrown id ⟨[1, 2, 3, 0], 3⟩ (effects 3 (.insert 0 9)) 2 none = some v' ∧ v'.contents = [1, 1, 1] := by
  decide

/-- **C109** Copy assignment: interrupted, the vector keeps its size and has taken over the first cells of the
other. -/
theorem C109_copy_assign {T : Type} (res : T → T) (v o : FV T) (hc : o.cells.length = v.cells.length) (k : Nat)
    (hk : k < o.cells.length) :
    ∃ v', thrown res v (copyAssignEffects o) k none = some v' ∧ v'.len = v.len ∧
      v'.contents = (o.cells.take k ++ v.cells.drop k).take v.len ∧
      (v.len ≤ k → v'.contents = o.cells.take v.len) := by
  have := thrown_puts res o.cells [.setLen o.len] v.cells v.len 0 k none hk (by omega)
  simp only [Nat.zero_add, List.take_zero, List.nil_append] at this
  refine ⟨_, this, rfl, rfl, fun h => ?_⟩
  simp only [torn, FV.contents]
  rw [List.take_append_of_le_length (by simp; omega), List.take_take, Nat.min_eq_left h]

/-- **C109** Copy assignment that is not interrupted copies everything, cells beyond the end included. -/
theorem C109_copy_assign_complete {T : Type} (res : T → T) (v o : FV T) (hc : o.cells.length = v.cells.length) :
    applyAll res v (copyAssignEffects o) = o := by
  have h := writeList_ok o.cells v.cells 0 (by omega)
  rw [copyAssignEffects, applyAll_append, applyAll_puts res _ v.cells v.len 0 _ h]
  simp only [applyAll, Micro.apply, List.foldl, List.take_zero, List.nil_append, Nat.zero_add, hc]
  simp

example : thrown id ⟨[1, 2, 5], 2⟩ (copyAssignEffects ⟨[7, 8, 9], 3⟩) 1 none = some ⟨[7, 2, 5], 2⟩ := by decide

/-- **C109** Interrupted `swap`: both vectors stay valid, and each has already got the other's size. -/
theorem C109_swap {T : Type} (a b a' b' : FV T) (k : Nat) (y z : Option T) (ha : a.len ≤ a.cells.length)
    (hb : b.len ≤ b.cells.length) (hc : a.cells.length = b.cells.length)
    (h : swapThrown a b k y z = some (a', b')) :
    (a'.cells.length = a.cells.length ∧ a'.len ≤ a'.cells.length) ∧
    (b'.cells.length = b.cells.length ∧ b'.len ≤ b'.cells.length) ∧ a'.len = b.len ∧ b'.len = a.len := by
  unfold swapThrown at h
  split at h
  · simp only [Option.some.injEq, Prod.mk.injEq] at h
    obtain ⟨rfl, rfl⟩ := h
    cases y <;> cases z <;> simp [torn] <;> omega
  · cases h

/-- **C109** Interrupted `swap`, when the failing element exchange has no effect: a vector is as it was exactly when
the sizes were equal and the cells exchanged so far agree as far as they are elements. -/
theorem C109_swap_iff {T : Type} (a b a' b' : FV T) (k : Nat) (ha : a.len ≤ a.cells.length)
    (hb : b.len ≤ b.cells.length) (hc : a.cells.length = b.cells.length)
    (h : swapThrown a b k none none = some (a', b')) :
    a'.contents = a.contents ↔ b.len = a.len ∧ a.contents.take k = b.contents.take k := by
  unfold swapThrown at h
  split at h
  · rename_i hk
    simp only [Option.some.injEq, Prod.mk.injEq] at h
    obtain ⟨rfl, rfl⟩ := h
    simp only [torn, FV.contents, List.take_take]
    constructor
    · intro e
      have el : b.len = a.len := by
        have := congrArg List.length e
        simp at this; omega
      refine ⟨el, ?_⟩
      rw [el] at e ⊢
      have := congrArg (List.take k) e
      rw [List.take_take, List.take_take, List.take_append, List.take_take, List.length_take] at this
      rw [← this, show min (min k a.len) k = min k a.len by omega,
        show min k a.len - min k b.cells.length = 0 by omega]
      simp
    · rintro ⟨el, e⟩
      rw [el] at e ⊢
      rw [List.take_append, List.take_take, List.length_take, Nat.min_comm, ← e,
        show min k b.cells.length = k by omega]
      conv => rhs; rw [← List.take_append_drop k a.cells, List.take_append, List.take_take, List.length_take]
      rw [Nat.min_comm a.len k, show min k a.cells.length = k by omega]
  · cases h

example : swapThrown ⟨[1, 2, 3], 2⟩ ⟨[1, 5, 6], 2⟩ 1 none none =
    some ((⟨[1, 2, 3], 2⟩, ⟨[1, 5, 6], 2⟩) : FV Nat × FV Nat) := by decide

/-- **C109** Violated: a `swap` that throws at once has exchanged the sizes, so that one vector has lost elements and
the other shows values that were not in it. -/
theorem C109_swap_fails : ∃ (a b a' b' : FV Nat), a.contents = [1, 2, 3] ∧ b.contents = [4] ∧
    swapThrown a b 0 none none = some (a', b') ∧ a'.contents = [1] ∧ b'.contents = [4, 0, 0] :=
  ⟨⟨[1, 2, 3], 3⟩, ⟨[4, 0, 0], 1⟩, ⟨[1, 2, 3], 1⟩, ⟨[4, 0, 0], 3⟩, by decide⟩

end Verif.FixedVector
