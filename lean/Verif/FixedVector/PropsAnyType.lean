import Verif.FixedVector.Props

/-!
# C02 over whole histories, exactly, for element types of any kind

A caller may mix calls that copy (`insert(pos, const T&)`, `insert(pos, count, value)`) with calls
that move; what a moved-from object looks like may differ from call to call.  So each call of a
history carries its own way of moving elements.
-/

namespace Verif.FixedVector

theorem mod_succ (j n : Nat) (hn : 0 < n) : (j + 1) % n = if j % n + 1 = n then 0 else j % n + 1 := by
  have h1 := Nat.mod_lt j hn
  rw [Nat.add_mod]
  by_cases h : n = 1
  · subst h; simp [Nat.mod_one]
  · rw [Nat.mod_eq_of_lt (show 1 < n by omega)]
    split
    · rename_i h; rw [h, Nat.mod_self]
    · exact Nat.mod_eq_of_lt (by omega)

/-- The left-to-right loop moving `L` elements `n` places to the right: every cell afterwards. -/
theorem moveLoop_shift (res : T → T) (n : Nat) (hn : 0 < n) : ∀ (L : Nat) (c : List T) (src : Nat),
    src + n + L ≤ c.length →
    ∃ c', moveLoop res c src (src + n) L = .ok c' ∧ c'.length = c.length ∧
      ∀ k, c'[k]? =
        if k < src then c[k]?
        else if k < src + n then (if k < src + L then c[k]?.map res else c[k]?)
        else if k < src + n + L then
          (if k < src + L then (c[src + (k - src) % n]?).map res else c[src + (k - src) % n]?)
        else c[k]? := by
  intro L
  induction L with
  | zero =>
    intro c src h
    refine ⟨c, rfl, rfl, fun k => ?_⟩
    grind
  | succ L ih =>
    intro c src h
    have hs : src < c.length := by omega
    simp only [moveLoop, read_ok hs, write_ok hs, Outcome.bind_ok]
    rw [write_ok (by simp; omega)]
    simp only [Outcome.bind_ok]
    obtain ⟨c', e, hl, hk⟩ := ih ((c.set src (res c[src])).set (src + n) c[src]) (src + 1) (by simp; omega)
    rw [show src + 1 + n = src + n + 1 by omega] at e
    refine ⟨c', e, by simpa using hl, fun k => ?_⟩
    rw [hk k]
    clear hk e ih
    simp only [List.getElem?_set, List.length_set]
    by_cases h1 : k < src
    · grind
    by_cases h2 : k < src + n
    · grind
    by_cases h3 : k = src + n
    · subst h3
      have : (src + n - src) % n = 0 := by simp
      grind
    · have hm := mod_succ (k - (src + 1)) n hn
      rw [show k - (src + 1) + 1 = k - src by omega] at hm
      have := Nat.mod_lt (k - (src + 1)) hn
      rw [hm]
      clear hm
      generalize (k - (src + 1)) % n = r at *
      grind

namespace Spec

/-- where an operation inserts, and how many elements -/
def insertion : Op T → Option (Nat × Nat)
  | .insert pos _ => some (pos, 1)
  | .insertFill pos n _ => some (pos, n)
  | .insertRange pos ys => some (pos, ys.length)
  | .insertIList pos ys => some (pos, ys.length)
  | _ => none

/-- Inserting `n` elements at `pos` into `xs` loses nothing although elements are moved one by one
from left to right: elements `n` apart behind `pos` are equal, and those that are moved over a
place that is itself still to be moved survive being moved from. -/
def Periodic (res : T → T) (xs : List T) (pos n : Nat) : Prop :=
  ∀ k (h : k + n < xs.length), pos ≤ k → xs[k + n] = xs[k] ∧ res xs[k] = xs[k]

/-- the condition for one call, `m` being the way elements are moved in it -/
def harmless (m : Mode T) (xs : List T) (op : Op T) : Prop :=
  ∀ res, m = .loop res → ∀ pos n, insertion op = some (pos, n) → 0 < n → Periodic res xs pos n

end Spec

theorem periodic_mod {res : T → T} {xs : List T} {pos n : Nat} (hn : 0 < n) (h : Spec.Periodic res xs pos n) :
    ∀ k, (hk : pos + k < xs.length) → xs[pos + k % n]? = xs[pos + k]? := by
  intro k
  induction k using Nat.strongRecOn with
  | _ k ih =>
    intro hk
    by_cases hkn : k < n
    · rw [Nat.mod_eq_of_lt hkn]
    · have h1 := ih (k - n) (by omega) (by omega)
      have h2 := (h (pos + (k - n)) (by omega) (by omega)).1
      rw [Nat.mod_eq_sub_mod (by omega), h1, List.getElem?_eq_getElem (by omega), List.getElem?_eq_getElem hk, ← h2]
      simp only [show pos + (k - n) + n = pos + k by omega]

/-- the two writes of every insertion, with elements moved one by one -/
theorem insert_core_loop (res : T → T) (v : FV T) (pos : Nat) (ys : List T) (hn : 0 < ys.length) (h1 : pos ≤ v.len)
    (h2 : v.len + ys.length ≤ v.cells.length) :
    ∃ c1 c2, shift (.loop res) v.cells pos v.len (pos + ys.length) = .ok c1 ∧
      writeList c1 pos ys = .ok c2 ∧ c1.length = v.cells.length ∧ c2.length = v.cells.length ∧
      ((c2.take (v.len + ys.length) = v.contents.take pos ++ ys ++ v.contents.drop pos) ↔
        Spec.Periodic res v.contents pos ys.length) := by
  obtain ⟨c1, e, hl, hk⟩ := moveLoop_shift res ys.length hn (v.len - pos) v.cells pos (by omega)
  have hlen : v.contents.length = v.len := by simp [FV.contents]; omega
  have hcell : ∀ k, k < v.len → v.contents[k]? = v.cells[k]? := by
    intro k hk; rw [FV.contents, List.getElem?_take, if_pos hk]
  refine ⟨c1, _, by rw [shift, if_neg (by omega)]; exact e, writeList_ok _ _ _ (by omega), hl, ?_, ?_⟩
  · simp only [List.length_append, List.length_take, List.length_drop, hl]; omega
  -- what the result shows behind the new elements
  have tail : ∀ j, pos + j < v.len →
      (c1.take pos ++ ys ++ c1.drop (pos + ys.length))[pos + ys.length + j]? =
        if j + ys.length < v.len - pos then (v.contents[pos + j % ys.length]?).map res
        else v.contents[pos + j % ys.length]? := by
    intro j hj
    have hm := Nat.mod_le j ys.length
    rw [hcell (pos + j % ys.length) (by omega)]
    rw [List.getElem?_append_right (by simp; omega), List.getElem?_drop]
    rw [show pos + ys.length + (pos + ys.length + j - (c1.take pos ++ ys).length) = pos + ys.length + j by
      simp; omega]
    rw [hk, if_neg (by omega), if_neg (by omega), if_pos (by omega)]
    rw [show pos + ys.length + j - pos = j + ys.length by omega, Nat.add_mod_right]
    grind
  have front : ∀ k, k < pos + ys.length →
      (c1.take pos ++ ys ++ c1.drop (pos + ys.length))[k]? =
        (v.contents.take pos ++ ys ++ v.contents.drop pos)[k]? := by
    intro k hk'
    have hkk := hk k
    clear hk tail
    by_cases hp : k < pos
    · have := hcell k (by omega)
      simp only [List.getElem?_append, List.getElem?_take, List.length_append, List.length_take]
      grind
    · simp only [List.getElem?_append, List.getElem?_take, List.length_append, List.length_take]
      grind
  have spec : ∀ j, pos + j < v.len →
      (v.contents.take pos ++ ys ++ v.contents.drop pos)[pos + ys.length + j]? = v.contents[pos + j]? := by
    intro j hj
    rw [List.getElem?_append_right (by simp; omega), List.getElem?_drop]
    congr 1
    simp; omega
  have crit : (c1.take pos ++ ys ++ c1.drop (pos + ys.length)).take (v.len + ys.length) =
      v.contents.take pos ++ ys ++ v.contents.drop pos ↔
      ∀ j, pos + j < v.len → v.contents[pos + j]? =
        if j + ys.length < v.len - pos then (v.contents[pos + j % ys.length]?).map res
        else v.contents[pos + j % ys.length]? := by
    constructor
    · intro h j hj
      rw [← tail j hj, ← spec j hj, ← h, List.getElem?_take, if_pos (by omega)]
    · intro h
      apply List.ext_getElem?
      intro k
      rw [List.getElem?_take]
      split
      · by_cases hp : k < pos + ys.length
        · exact front k hp
        · obtain ⟨j, rfl⟩ : ∃ j, k = pos + ys.length + j := ⟨k - (pos + ys.length), by omega⟩
          rw [tail j (by omega), spec j (by omega), h j (by omega)]
      · rw [List.getElem?_eq_none]
        simp; omega
  rw [crit]
  constructor
  · intro h k hkl hpk
    rw [hlen] at hkl
    obtain ⟨j, rfl⟩ : ∃ j, k = pos + j := ⟨k - pos, by omega⟩
    -- the first `n` shifted elements survive being moved from
    have fixed : ∀ i, i < ys.length → i + ys.length < v.len - pos →
        v.contents[pos + i]? = (v.contents[pos + i]?).map res := by
      intro i hi hi2
      have := h i (by omega)
      rw [if_pos hi2, Nat.mod_eq_of_lt hi] at this
      exact this
    have base : ∀ i, pos + i < v.len → ys.length ≤ v.len - pos → i % ys.length + ys.length < v.len - pos →
        v.contents[pos + i]? = v.contents[pos + i % ys.length]? := by
      intro i hi _ hi2
      have := h i hi
      split at this
      · rw [this, ← fixed _ (Nat.mod_lt _ hn) hi2]
      · exact this
    have hm := Nat.mod_le j ys.length
    have b1 := base j (by omega) (by omega) (by omega)
    have b2 := base (j + ys.length) (by omega) (by omega) (by rw [Nat.add_mod_right]; omega)
    have b3 := fixed (j % ys.length) (Nat.mod_lt _ hn) (by omega)
    rw [Nat.add_mod_right] at b2
    have e1 : v.contents[pos + j + ys.length]? = v.contents[pos + j]? := by
      rw [show pos + j + ys.length = pos + (j + ys.length) by omega, b2, b1]
    have e2 : (v.contents[pos + j]?).map res = v.contents[pos + j]? := by rw [b1, ← b3]
    rw [List.getElem?_eq_getElem (by omega), List.getElem?_eq_getElem (by omega)] at e1
    rw [List.getElem?_eq_getElem (by omega)] at e2
    exact ⟨Option.some.inj e1, Option.some.inj e2⟩
  · intro h j hj
    have hp := periodic_mod hn h j (by omega)
    rw [hp]
    split
    · have := (h (pos + j) (by omega) (by omega)).2
      rw [List.getElem?_eq_getElem (by omega)]
      simp [this]
    · rfl

/-- one call, whatever the way of moving: it succeeds, the size is right, and what it shows is right
exactly when the call is harmless -/
theorem step_any (m : Mode T) (cap : Nat) (v : FV T) (op : Op T) (hcap : v.cells.length = cap) (hv : v.len ≤ cap)
    (ha : Spec.allowed cap v.contents op) :
    ∃ v' r, step m v op = .ok (v', r) ∧ v'.cells.length = cap ∧ v'.len ≤ cap ∧
      v'.len = (Spec.result v.contents op).length ∧
      (v'.contents = Spec.result v.contents op ↔ Spec.harmless m v.contents op) := by
  by_cases hins : op.inserts = true
  · cases m with
    | memmove =>
      obtain ⟨v', r, e, h, -⟩ := step_sim .memmove cap v v.contents op (fun _ => rfl) ⟨hcap, hv, rfl⟩ ha
      refine ⟨v', r, e, h.cap_eq, h.len_le, h.length.symm, ⟨fun _ => ?_, fun _ => h.contents_eq⟩⟩
      intro res hm
      cases hm
    | loop res =>
      subst hcap
      have hlen : v.contents.length = v.len := by simp [FV.contents]; omega
      obtain ⟨hp, hf⟩ := ha
      unfold Spec.fits at hf
      have harm : ∀ pos n, Spec.insertion op = some (pos, n) → 0 < n →
          (Spec.harmless (.loop res) v.contents op ↔ Spec.Periodic res v.contents pos n) := by
        intro pos n hop hn
        constructor
        · intro h; exact h res rfl pos n hop hn
        · rintro h res' hm pos' n' hop' -
          cases hm
          rw [hop] at hop'
          cases hop'
          exact h
      have harm0 : ∀ pos, Spec.insertion op = some (pos, 0) → Spec.harmless (.loop res) v.contents op := by
        intro pos hop res' _ pos' n' hop' hn'
        rw [hop] at hop'
        cases hop'
        omega
      cases op with
      | insert pos x =>
        simp only [Spec.positionsValid, hlen] at hp
        simp only [Spec.result, List.length_append, List.length_take, List.length_drop, hlen,
          List.length_singleton] at hf
        obtain ⟨c1, c2, e1, e2, -, hl2, hc⟩ := insert_core_loop res v pos [x] (by simp) hp (by simp; omega)
        have h1 : v.len < v.cells.length := by omega
        simp only [List.length_singleton, writeList] at e1 e2
        refine ⟨⟨c2, v.len + 1⟩, some pos, ?_, hl2, by simp; omega, ?_, ?_⟩
        · cases hw : write c1 pos x with
          | ok c =>
            rw [hw] at e2
            simp only [Outcome.bind_ok, Outcome.ok.injEq] at e2
            subst e2
            simp [step, insertArg, validate, h1, hp, e1, hw, Arg.deref]
          | _ => rw [hw] at e2; simp at e2
        · simp [Spec.result, hlen]; omega
        · rw [harm pos 1 rfl (by decide)]
          exact hc
      | insertFill pos n x =>
        simp only [Spec.positionsValid, hlen] at hp
        simp only [Spec.result, List.length_append, List.length_take, List.length_drop, hlen,
          List.length_replicate] at hf
        by_cases hn : n = 0
        · subst hn
          refine ⟨v, some pos, ?_, rfl, hv, ?_, ?_⟩
          · simp [step, insertFill, validate, hp, hv]
          · simp [Spec.result, hlen]
          · exact ⟨fun _ => harm0 pos rfl, fun _ => by simp [Spec.result]⟩
        · obtain ⟨c1, c2, e1, e2, -, hl2, hc⟩ := insert_core_loop res v pos (List.replicate n x) (by simp; omega) hp
            (by simp; omega)
          simp only [List.length_replicate] at e1 hc
          have h1 : v.len + n ≤ v.cells.length := by omega
          refine ⟨⟨c2, v.len + n⟩, some pos, ?_, hl2, by simp; omega, ?_, ?_⟩
          · simp [step, insertFill, validate, h1, hp, e1, e2, hn]
          · simp [Spec.result, hlen]; omega
          · rw [harm pos n rfl (by omega)]
            exact hc
      | insertRange pos ys =>
        simp only [Spec.positionsValid, hlen] at hp
        simp only [Spec.result, List.length_append, List.length_take, List.length_drop, hlen] at hf
        by_cases hn : ys.length = 0
        · obtain rfl := List.length_eq_zero_iff.mp hn
          refine ⟨v, some pos, ?_, rfl, hv, ?_, ?_⟩
          · simp [step, insertRange, validate, hp, hv]
          · simp [Spec.result, hlen]
          · exact ⟨fun _ => harm0 pos rfl, fun _ => by simp [Spec.result]⟩
        · obtain ⟨c1, c2, e1, e2, -, hl2, hc⟩ := insert_core_loop res v pos ys (by omega) hp (by omega)
          have h1 : v.len + ys.length ≤ v.cells.length := by omega
          refine ⟨⟨c2, v.len + ys.length⟩, some pos, ?_, hl2, by simp; omega, ?_, ?_⟩
          · simp only [step, insertRange, validate, h1, hp, e1, e2, hn, decide_true, Outcome.assert_true,
              Outcome.bind_ok, if_false]
          · simp [Spec.result, hlen]; omega
          · rw [harm pos ys.length rfl (by omega)]
            exact hc
      | insertIList pos ys =>
        simp only [Spec.positionsValid, hlen] at hp
        simp only [Spec.result, List.length_append, List.length_take, List.length_drop, hlen] at hf
        by_cases hn : ys.length = 0
        · obtain rfl := List.length_eq_zero_iff.mp hn
          refine ⟨v, some pos, ?_, rfl, hv, ?_, ?_⟩
          · simp [step, insertIList, hv]
          · simp [Spec.result, hlen]
          · exact ⟨fun _ => harm0 pos rfl, fun _ => by simp [Spec.result]⟩
        · obtain ⟨c1, c2, e1, e2, -, hl2, hc⟩ := insert_core_loop res v pos ys (by omega) hp (by omega)
          have h1 : v.len + ys.length ≤ v.cells.length := by omega
          refine ⟨⟨c2, v.len + ys.length⟩, some pos, ?_, hl2, by simp; omega, ?_, ?_⟩
          · simp only [step, insertIList, h1, e1, e2, hn, decide_true, Outcome.assert_true,
              Outcome.bind_ok, if_false]
          · simp [Spec.result, hlen]; omega
          · rw [harm pos ys.length rfl (by omega)]
            exact hc
      | _ => simp [Op.inserts] at hins
  · obtain ⟨v', r, e, h, -⟩ := step_sim m cap v v.contents op (fun h => absurd h hins) ⟨hcap, hv, rfl⟩ ha
    refine ⟨v', r, e, h.cap_eq, h.len_le, h.length.symm, ⟨fun _ => ?_, fun _ => h.contents_eq⟩⟩
    intro res _ pos n hop
    cases op <;> simp_all [Spec.insertion, Op.inserts]

/-- **C02** exactly, for every insertion (`insert` of one value, of `count` copies, of a range, of an
initializer list), for elements moved one by one, whatever moved-from objects look like: the call is
never undefined, the size is right, the returned iterator designates the first new element, and the
new elements and everything before them are right.  Nothing is lost behind them if and only if
elements `n` apart (`n` the number inserted) are equal there and survive being moved from. -/
theorem C02_insert_many_iff {T : Type} (res : T → T) (v : FV T) (pos : Nat) (ys : List T)
    (h1 : v.len + ys.length ≤ v.cells.length) (h2 : pos ≤ v.len) (hn : 0 < ys.length) :
    ∃ v', insertRange (.loop res) v pos ys = .ok (v', pos) ∧ insertIList (.loop res) v pos ys = .ok (v', pos) ∧
      v'.contents.length = v.len + ys.length ∧
      v'.contents.take (pos + ys.length) = v.contents.take pos ++ ys ∧
      (v'.contents = v.contents.take pos ++ ys ++ v.contents.drop pos ↔
        ∀ k (h : k + ys.length < v.contents.length), pos ≤ k →
          v.contents[k + ys.length] = v.contents[k] ∧ res v.contents[k] = v.contents[k]) := by
  obtain ⟨c1, c2, e1, e2, hl1, hl2, hc⟩ := insert_core_loop res v pos ys hn h2 (by omega)
  have hn' : ys.length ≠ 0 := by omega
  have hlen : v.contents.length = v.len := by simp [FV.contents]; omega
  refine ⟨⟨c2, v.len + ys.length⟩, ?_, ?_, by simp [FV.contents]; omega, ?_, hc⟩
  · simp only [insertRange, validate, h1, h2, e1, e2, hn', decide_true, Outcome.assert_true, Outcome.bind_ok,
      if_false]
  · simp only [insertIList, h1, e1, e2, hn', decide_true, Outcome.assert_true, Outcome.bind_ok, if_false]
  · have e2' := writeList_ok ys c1 pos (by omega)
    rw [e2, Outcome.ok.injEq] at e2'
    obtain ⟨c1', e1', -, hk⟩ := moveLoop_shift res ys.length hn (v.len - pos) v.cells pos (by omega)
    rw [shift, if_neg (by omega)] at e1
    rw [e1', Outcome.ok.injEq] at e1
    subst e1
    simp only [FV.contents]
    rw [e2']
    apply List.ext_getElem?
    intro k
    have hkk := hk k
    clear hk hc e1' e2 e2'
    simp only [List.getElem?_append, List.getElem?_take, List.length_append, List.length_take]
    grind

/-- two new elements in front of `1 2 1 2`: nothing is lost; in front of `1 2 3 4` the last two are -/
example : (∃ v', insertRange (.loop id) ⟨[1, 2, 1, 2, 0, 0], 4⟩ 0 [8, 9] = .ok (v', 0) ∧
      v'.contents = [8, 9, 1, 2, 1, 2]) ∧
    (∃ v', insertRange (.loop id) ⟨[1, 2, 3, 4, 0, 0], 4⟩ 0 [8, 9] = .ok (v', 0) ∧
      v'.contents = [8, 9, 1, 2, 1, 2]) :=
  ⟨⟨_, rfl, by decide⟩, _, rfl, by decide⟩

/-- **C02** The overload `insert(pos, count, value)` does what inserting a range of `count` equal
elements does, so `C02_insert_many_iff` describes it too.  (Its elements are copied: residue `id`.) -/
theorem C02_insert_fill {T : Type} (m : Mode T) (v : FV T) (pos n : Nat) (x : T) :
    insertFill m v pos n x = insertRange m v pos (List.replicate n x) := by
  simp [insertFill, insertRange]

example : ∃ v', insertFill (.loop id) ⟨[1, 2, 3, 0, 0], 3⟩ 1 2 7 = .ok (v', 1) ∧ v'.contents = [1, 7, 7, 2, 3] := by
  rw [C02_insert_fill]
  exact ⟨_, rfl, by decide⟩

/-- A history in which each call has its own way of moving elements. -/
def runEach (v : FV T) : List (Mode T × Op T) → Outcome (FV T)
  | [] => .ok v
  | (m, op) :: ops => do
    let (v, _) ← step m v op
    runEach v ops

/-- whether a call is in range depends on the size only -/
theorem allowed_length (cap : Nat) {xs ys : List T} (h : xs.length = ys.length) (op : Op T) :
    Spec.allowed cap xs op ↔ Spec.allowed cap ys op := by
  cases op <;> simp [Spec.allowed, Spec.positionsValid, Spec.fits, Spec.result, h]

theorem result_length {xs ys : List T} (h : xs.length = ys.length) (op : Op T) :
    (Spec.result xs op).length = (Spec.result ys op).length := by
  cases op <;> simp [Spec.result, h]

/-- **C02** For element types of every kind, copied or moved, whatever moved-from objects look like:
no call of a history within the documented ranges reads or writes outside the slots, fails an
assertion or is undefined, and after it the size is that of the sequence an ordinary vector would
hold. -/
theorem C02_history_safe {T : Type} (cells : List T) (calls : List (Mode T × Op T)) (ys : List T)
    (h : Spec.History cells.length [] (calls.map Prod.snd) ys) :
    ∃ v, runEach (FV.mk0 cells) calls = .ok v ∧ v.cells.length = cells.length ∧ v.len = ys.length ∧
      v.contents.length = ys.length := by
  have key : ∀ (calls : List (Mode T × Op T)) (v : FV T) (xs : List T), v.cells.length = cells.length →
      v.len ≤ cells.length → v.len = xs.length → Spec.History cells.length xs (calls.map Prod.snd) ys →
      ∃ w, runEach v calls = .ok w ∧ w.cells.length = cells.length ∧ w.len = ys.length ∧ w.len ≤ cells.length := by
    intro calls
    induction calls with
    | nil => intro v xs hc hl hx h; cases h; exact ⟨v, rfl, hc, hx, hl⟩
    | cons a calls ih =>
      obtain ⟨m, op⟩ := a
      intro v xs hc hl hx h
      have hlen : v.contents.length = xs.length := by simp [FV.contents]; omega
      cases h with
      | cons ha hr =>
        obtain ⟨v', r, e, hc', hl', hx', -⟩ := step_any m cells.length v op hc hl ((allowed_length _ hlen op).2 ha)
        obtain ⟨w, ew, hw⟩ := ih v' _ hc' hl' (by rw [hx', result_length hlen]) hr
        exact ⟨w, by simp [runEach, e, ew], hw⟩
  obtain ⟨w, e, hc, hl, hle⟩ := key calls (FV.mk0 cells) [] rfl (by simp [FV.mk0]) (by simp [FV.mk0]) h
  exact ⟨w, e, hc, hl, by simp [FV.contents]; omega⟩

/-- moved strings: `push_back` three times, then insert at the front -/
example : ∃ v, runEach (FV.mk0 [0, 0, 0, 0]) [(.memmove, .pushBack 1), (.memmove, .pushBack 2),
    (.memmove, .pushBack 3), (.loop fun _ => 0, .insert 0 9)] = .ok v ∧ v.contents = [9, 0, 0, 1] :=
  ⟨_, rfl, by decide⟩

/-- **C02** over whole histories, exactly, for element types of every kind: after every call of a history within the
documented ranges the vector shows what an ordinary vector would show, if and only if every insertion
of the history finds the elements behind its position as `C02_insert_many_iff` requires (always the
case where elements are moved by `memmove`, where nothing or no more than the inserted number of
elements stands behind the position, and for every operation that does not insert). -/
theorem C02_history_iff {T : Type} (cells : List T) (calls : List (Mode T × Op T)) (ys : List T)
    (h : Spec.History cells.length [] (calls.map Prod.snd) ys) :
    (∀ k zs, Spec.History cells.length [] ((calls.map Prod.snd).take k) zs →
        ∃ v, runEach (FV.mk0 cells) (calls.take k) = .ok v ∧ v.contents = zs) ↔
      ∀ k m op zs, calls[k]? = some (m, op) → Spec.History cells.length [] ((calls.map Prod.snd).take k) zs →
        Spec.harmless m zs op := by
  have uniq : ∀ (ops : List (Op T)) (xs ys zs : List T), Spec.History cells.length xs ops ys →
      Spec.History cells.length xs ops zs → ys = zs := by
    intro ops
    induction ops with
    | nil => intro xs ys zs h1 h2; cases h1; cases h2; rfl
    | cons op ops ih => intro xs ys zs h1 h2; cases h1; cases h2; exact ih _ _ _ ‹_› ‹_›
  have key : ∀ (calls : List (Mode T × Op T)) (v : FV T) (xs : List T), v.cells.length = cells.length →
      v.len ≤ cells.length → v.contents = xs → Spec.History cells.length xs (calls.map Prod.snd) ys →
      ((∀ k zs, Spec.History cells.length xs ((calls.map Prod.snd).take k) zs →
        ∃ w, runEach v (calls.take k) = .ok w ∧ w.contents = zs) ↔
      ∀ k m op zs, calls[k]? = some (m, op) → Spec.History cells.length xs ((calls.map Prod.snd).take k) zs →
        Spec.harmless m zs op) := by
    intro calls
    induction calls with
    | nil =>
      intro v xs hc hl hx h
      refine ⟨fun _ k m op zs hk => by simp at hk, fun _ k zs hz => ?_⟩
      have : zs = xs := by
        simp only [List.map_nil, List.take_nil] at hz
        cases hz; rfl
      exact ⟨v, by simp [runEach], by rw [hx, this]⟩
    | cons a calls ih =>
      obtain ⟨m, op⟩ := a
      intro v xs hc hl hx h
      subst hx
      cases h with
      | cons ha hr =>
        obtain ⟨v', r, e, hc', hl', -, hiff⟩ := step_any m cells.length v op hc hl ha
        constructor
        · intro H
          obtain ⟨w, ew, hw⟩ := H 1 (Spec.result v.contents op) (.cons ha (by simpa using .nil _))
          simp only [List.take_succ_cons, List.take_zero, runEach, e, Outcome.bind_ok, Outcome.ok.injEq] at ew
          subst ew
          have tl := (ih v' _ hc' hl' hw hr).1 (by
            intro k zs hz
            obtain ⟨w, ew, hw'⟩ := H (k + 1) zs (.cons ha hz)
            simp only [List.take_succ_cons, runEach, e, Outcome.bind_ok] at ew
            exact ⟨w, ew, hw'⟩)
          intro k m' op' zs hk hz
          cases k with
          | zero =>
            simp only [List.getElem?_cons_zero, Option.some.injEq, Prod.mk.injEq] at hk
            obtain ⟨rfl, rfl⟩ := hk
            simp only [List.take_zero] at hz
            cases hz
            exact hiff.1 hw
          | succ k =>
            simp only [List.getElem?_cons_succ] at hk
            simp only [List.map_cons, List.take_succ_cons] at hz
            cases hz with
            | cons _ hz => exact tl k m' op' zs hk hz
        · intro H
          have hw := hiff.2 (H 0 m op _ rfl (by simpa using .nil _))
          have tl := (ih v' _ hc' hl' hw hr).2 (by
            intro k m' op' zs hk hz
            exact H (k + 1) m' op' zs hk (.cons ha hz))
          intro k zs hz
          cases k with
          | zero =>
            simp only [List.take_zero] at hz
            cases hz
            exact ⟨v, rfl, rfl⟩
          | succ k =>
            simp only [List.map_cons, List.take_succ_cons] at hz
            cases hz with
            | cons _ hz =>
              obtain ⟨w, ew, hw'⟩ := tl k zs hz
              exact ⟨w, by simp [runEach, e, ew], hw'⟩
  exact key calls (FV.mk0 cells) [] rfl (by simp [FV.mk0]) (by simp [FV.mk0, FV.contents]) h

/-- **C02** in particular: element types of every kind behave as the plain sequence in histories whose
insertions never have more elements behind the position than they insert. -/
theorem C02_history_near_end {T : Type} (cells : List T) (calls : List (Mode T × Op T)) (ys : List T)
    (h : Spec.History cells.length [] (calls.map Prod.snd) ys)
    (hpos : ∀ k m op zs pos n, calls[k]? = some (m, op) → Spec.insertion op = some (pos, n) →
      Spec.History cells.length [] ((calls.map Prod.snd).take k) zs → zs.length ≤ pos + n) :
    ∃ v, runEach (FV.mk0 cells) calls = .ok v ∧ v.contents = ys := by
  have := (C02_history_iff cells calls ys h).2 (by
    intro k m op zs hk hz res _ pos n hop _ j hj hpj
    have := hpos k m op zs pos n hk hop hz
    omega)
  obtain ⟨v, e, hv⟩ := this calls.length ys (by rw [List.take_of_length_le (by simp)]; exact h)
  exact ⟨v, by rwa [List.take_of_length_le (Nat.le_refl _)] at e, hv⟩

/-- a history of moved elements with an insertion before the last one -/
def exCalls : List (Mode Nat × Op Nat) :=
  [(.memmove, .pushBack 1), (.memmove, .pushBack 2), (.loop fun _ => 0, .insert 1 9), (.loop fun _ => 0, .erase 0)]

theorem exCalls_history : Spec.History 3 [] (exCalls.map Prod.snd) [9, 2] := by
  repeat (first
    | exact .nil _
    | refine .cons ⟨by simp [Spec.positionsValid, Spec.result], by simp [Spec.fits, Spec.result]⟩ ?_)

example : ∃ v, runEach (FV.mk0 [0, 0, 0]) exCalls = .ok v ∧ v.contents = [9, 2] := by
  refine C02_history_near_end [0, 0, 0] exCalls [9, 2] exCalls_history ?_
  intro k m op zs pos n hk hop hz
  match k, hk with
  | 0, hk => cases hk; cases hop
  | 1, hk => cases hk; cases hop
  | 2, hk =>
    cases hk; cases hop
    cases hz with
    | cons _ hz =>
      cases hz with
      | cons _ hz => cases hz; decide
  | 3, hk => cases hk; cases hop

/-- **C02 fails** over histories for element types moved one by one: three calls, each in range, and the vector shows
something else. -/
theorem C02_history_fails (res : Nat → Nat) :
    ∃ (cells : List Nat) (ops : List (Op Nat)) (ys : List Nat) (v : FV Nat),
      Spec.History cells.length [] ops ys ∧ run (.loop res) (FV.mk0 cells) ops = .ok v ∧ v.contents ≠ ys := by
  refine ⟨[0, 0, 0], [.pushBack 1, .pushBack 2, .insert 0 9], [9, 1, 2], ⟨[9, res 1, 1], 3⟩, ?_, ?_, ?_⟩
  · repeat (first
      | exact .nil _
      | refine .cons ⟨by simp [Spec.positionsValid, Spec.result], by simp [Spec.fits, Spec.result]⟩ ?_)
  · simp [run, step, pushBack, write, read, FV.mk0, insertArg, validate, shift, moveLoop, Arg.deref]
  · simp [FV.contents]

end Verif.FixedVector
