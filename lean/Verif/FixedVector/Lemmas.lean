import Verif.FixedVector.Model

namespace Verif.FixedVector

theorem write_ok {c : List T} {i : Nat} {x : T} (h : i < c.length) :
    write c i x = .ok (c.set i x) := by simp [write, h]

theorem read_ok {c : List T} {i : Nat} (h : i < c.length) : read c i = .ok c[i] := by
  simp [read, List.getElem?_eq_getElem h]

theorem writeList_ok (xs : List T) : ∀ (c : List T) (i : Nat), i + xs.length ≤ c.length →
    writeList c i xs = .ok (c.take i ++ xs ++ c.drop (i + xs.length)) := by
  induction xs with
  | nil => intro c i h; simp [writeList]
  | cons x xs ih =>
    intro c i h
    simp only [List.length_cons] at h
    have hi : i < c.length := by omega
    simp only [writeList, write_ok hi, Outcome.bind_ok]
    rw [ih _ _ (by simp; omega)]
    congr 1
    apply List.ext_getElem?
    intro k
    simp only [List.getElem?_append, List.getElem?_take, List.getElem?_drop, List.getElem?_set,
      List.length_take, List.length_append, List.length_set, List.length_cons,
      List.getElem?_cons]
    clear ih
    grind

theorem readList_ok : ∀ (n : Nat) (c : List T) (i : Nat), i + n ≤ c.length →
    readList c i n = .ok ((c.drop i).take n) := by
  intro n
  induction n with
  | zero => intro c i h; simp [readList]
  | succ n ih =>
    intro c i h
    have hi : i < c.length := by omega
    simp only [readList, read_ok hi, Outcome.bind_ok]
    rw [ih _ _ (by omega)]
    simp only [Outcome.bind_ok]
    rw [List.drop_eq_getElem_cons hi, List.take_succ_cons]

theorem shift_memmove {c : List T} {src last dst : Nat} (h1 : src ≤ last) (h2 : last ≤ c.length)
    (h3 : dst + (last - src) ≤ c.length) :
    shift .memmove c src last dst =
      .ok (c.take dst ++ (c.drop src).take (last - src) ++ c.drop (dst + (last - src))) := by
  unfold shift
  rw [if_neg (by omega)]
  simp only
  rw [readList_ok _ _ _ (by omega)]
  simp only [Outcome.bind_ok]
  have hl : ((c.drop src).take (last - src)).length = last - src := by simp; omega
  rw [writeList_ok _ _ _ (by rw [hl]; exact h3), hl]

/-- Left shift by the element loop: whatever the moved-from residue, the part up to the
end of the destination is right and the length is unchanged. -/
theorem moveLoop_left (res : T → T) : ∀ (n : Nat) (c : List T) (src dst : Nat), dst < src →
    src + n ≤ c.length →
    ∃ c', moveLoop res c src dst n = .ok c' ∧ c'.length = c.length ∧
      c'.take (dst + n) = c.take dst ++ (c.drop src).take n := by
  intro n
  induction n with
  | zero => intro c src dst h1 h2; exact ⟨c, by simp [moveLoop]⟩
  | succ n ih =>
    intro c src dst h1 h2
    have hs : src < c.length := by omega
    simp only [moveLoop, read_ok hs, write_ok hs, Outcome.bind_ok]
    rw [write_ok (by simp; omega)]
    simp only [Outcome.bind_ok]
    obtain ⟨c', e, hl, ht⟩ := ih ((c.set src (res c[src])).set dst c[src]) (src+1) (dst+1)
      (by omega) (by simp; omega)
    refine ⟨c', e, by simpa using hl, ?_⟩
    have : dst + (n + 1) = dst + 1 + n := by omega
    rw [this, ht]
    apply List.ext_getElem?
    intro k
    simp only [List.getElem?_append, List.getElem?_take, List.getElem?_drop, List.getElem?_set,
      List.length_take, List.length_set]
    clear ih ht e hl
    grind

/-- Left shift in any mode. -/
theorem shift_left (m : Mode T) {c : List T} {src last dst : Nat} (h0 : dst < src)
    (h1 : src ≤ last) (h2 : last ≤ c.length) :
    ∃ c', shift m c src last dst = .ok c' ∧ c'.length = c.length ∧
      c'.take (dst + (last - src)) = c.take dst ++ (c.drop src).take (last - src) := by
  cases m with
  | memmove =>
    refine ⟨_, shift_memmove h1 h2 (by omega), ?_, ?_⟩
    · simp; omega
    · rw [List.take_append_of_le_length (by simp; omega)]
      rw [List.take_of_length_le (by simp; omega)]
  | loop res =>
    unfold shift
    rw [if_neg (by omega)]
    exact moveLoop_left res _ _ _ _ h0 (by omega)

/-- Right shift without overlap by the element loop. -/
theorem moveLoop_right (res : T → T) : ∀ (n : Nat) (c : List T) (src dst : Nat), src + n ≤ dst →
    dst + n ≤ c.length →
    ∃ c', moveLoop res c src dst n = .ok c' ∧ c'.length = c.length ∧
      c'.take src = c.take src ∧
      (c'.drop dst).take n = (c.drop src).take n := by
  intro n
  induction n with
  | zero => intro c src dst h1 h2; exact ⟨c, by simp [moveLoop]⟩
  | succ n ih =>
    intro c src dst h1 h2
    have hs : src < c.length := by omega
    simp only [moveLoop, read_ok hs, write_ok hs, Outcome.bind_ok]
    rw [write_ok (by simp; omega)]
    simp only [Outcome.bind_ok]
    -- strengthen: the cell `dst` is not touched by the remaining iterations
    have key : ∀ (n : Nat) (c c' : List T) (src dst k : Nat), k < src → k < dst →
        moveLoop res c src dst n = .ok c' → c'[k]? = c[k]? := by
      intro n
      induction n with
      | zero => intro c c' src dst k _ _ e; simp only [moveLoop, Outcome.ok.injEq] at e; rw [e]
      | succ n ih =>
        intro c c' src dst k h1 h2 e
        simp only [moveLoop, read, write] at e
        cases hr : c[src]? with
        | none => simp [hr] at e
        | some x =>
          simp only [hr, Outcome.bind_ok] at e
          split at e
          · simp only [Outcome.bind_ok] at e
            split at e
            · simp only [Outcome.bind_ok] at e
              rw [ih _ _ _ _ k (by omega) (by omega) e]
              simp only [List.getElem?_set]
              grind
            · simp at e
          · simp at e
    have key2 : ∀ (n : Nat) (c c' : List T) (src dst k : Nat), src + n ≤ k → k < dst →
        moveLoop res c src dst n = .ok c' → c'[k]? = c[k]? := by
      intro n
      induction n with
      | zero => intro c c' src dst k _ _ e; simp only [moveLoop, Outcome.ok.injEq] at e; rw [e]
      | succ n ih =>
        intro c c' src dst k h1 h2 e
        simp only [moveLoop, read, write] at e
        cases hr : c[src]? with
        | none => simp [hr] at e
        | some x =>
          simp only [hr, Outcome.bind_ok] at e
          split at e
          · simp only [Outcome.bind_ok] at e
            split at e
            · simp only [Outcome.bind_ok] at e
              rw [ih _ _ _ _ k (by omega) (by omega) e]
              simp only [List.getElem?_set]
              grind
            · simp at e
          · simp at e
    obtain ⟨c', e, hl, ht, hd⟩ := ih ((c.set src (res c[src])).set dst c[src]) (src+1) (dst+1)
      (by omega) (by simp; omega)
    refine ⟨c', e, by simpa using hl, ?_, ?_⟩
    · apply List.ext_getElem?
      intro k
      simp only [List.getElem?_take]
      split
      · rw [key _ _ _ _ _ k (by omega) (by omega) e]
        simp only [List.getElem?_set]
        grind
      · rfl
    · have hdst := key2 _ _ _ _ _ dst (by omega) (by omega) e
      apply List.ext_getElem?
      intro k
      have hk := congrArg (fun l => l[k-1]?) hd
      simp only [List.getElem?_take, List.getElem?_drop, List.getElem?_set, List.length_set] at hk hdst ⊢
      grind

end Verif.FixedVector

namespace Verif.FixedVector

/-- `v` represents the sequence `xs` in `cap` slots. -/
structure Abs (cap : Nat) (v : FV T) (xs : List T) : Prop where
  cap_eq : v.cells.length = cap
  len_le : v.len ≤ cap
  contents_eq : v.contents = xs

theorem Abs.length {cap : Nat} {v : FV T} {xs : List T} (h : Abs cap v xs) :
    xs.length = v.len := by
  have := h.len_le; have := h.cap_eq
  rw [← h.contents_eq, FV.contents]; simp; omega

/-- operations that shift elements to the right -/
def Op.inserts : Op T → Bool
  | .insert .. => true
  | .insertFill .. => true
  | .insertRange .. => true
  | .insertIList .. => true
  | _ => false

theorem ins_lists (c ys : List T) (len pos : Nat) (h1 : pos ≤ len) (h2 : len + ys.length ≤ c.length) :
    ((c.take (pos + ys.length) ++ (c.drop pos).take (len - pos) ++
        c.drop (pos + ys.length + (len - pos))).take pos ++ ys ++
      (c.take (pos + ys.length) ++ (c.drop pos).take (len - pos) ++
        c.drop (pos + ys.length + (len - pos))).drop (pos + ys.length)).take (len + ys.length)
      = (c.take len).take pos ++ ys ++ (c.take len).drop pos := by
  apply List.ext_getElem?
  intro k
  simp only [List.getElem?_append, List.getElem?_take, List.getElem?_drop,
      List.length_take, List.length_append, List.length_drop]
  grind

theorem insert_core (v : FV T) (pos : Nat) (ys : List T) (h1 : pos ≤ v.len)
    (h2 : v.len + ys.length ≤ v.cells.length) :
    ∃ c1 c2, shift .memmove v.cells pos v.len (pos + ys.length) = .ok c1 ∧
      writeList c1 pos ys = .ok c2 ∧ c1.length = v.cells.length ∧
      Abs v.cells.length ⟨c2, v.len + ys.length⟩
        (v.contents.take pos ++ ys ++ v.contents.drop pos) := by
  refine ⟨_, _, shift_memmove h1 (by omega) (by omega), writeList_ok _ _ _ (by simp; omega), ?_, ?_⟩
  · simp; omega
  · refine ⟨by simp; omega, by simp; omega, ?_⟩
    unfold FV.contents
    exact ins_lists v.cells ys v.len pos h1 h2

theorem step_sim (m : Mode T) (cap : Nat) (v : FV T) (xs : List T) (op : Op T)
    (hm : op.inserts = true → m = .memmove)
    (hv : Abs cap v xs) (ha : Spec.allowed cap xs op) :
    ∃ v' r, step m v op = .ok (v', r) ∧ Abs cap v' (Spec.result xs op) ∧
      (Spec.returned op = none → r = none) ∧
      ((∀ a, op ≠ .eraseRange a a) → r = Spec.returned op) ∧
      (∀ a, op = .eraseRange a a → r = some 0) := by
  have hlen := hv.length
  obtain ⟨hcap, hle, rfl⟩ := hv
  subst hcap
  obtain ⟨hp, hf⟩ := ha
  unfold Spec.fits at hf
  cases op with
  | pushBack x =>
    simp [Spec.result, hlen] at hf
    refine ⟨⟨v.cells.set v.len x, v.len + 1⟩, none, ?_, ⟨by simp, by simp; omega, ?_⟩, ?_⟩
    · have : v.len < v.cells.length := by omega
      simp [step, pushBack, write_ok, this]
    · simp only [FV.contents, Spec.result]
      apply List.ext_getElem?
      intro k
      simp only [List.getElem?_append, List.getElem?_take, List.getElem?_set, List.length_take, List.getElem?_cons]
      grind
    · simp [Spec.returned]
  | popBack =>
    refine ⟨popBack v, none, rfl, ?_, by simp [Spec.returned]⟩
    simp only [popBack]
    split
    · refine ⟨rfl, hle, ?_⟩
      simp [Spec.result, hlen, *, FV.contents]
    · refine ⟨rfl, by simp; omega, ?_⟩
      simp only [FV.contents, Spec.result] at hlen ⊢
      rw [hlen, List.take_take]; congr 1; omega
  | clear =>
    exact ⟨clear v, none, rfl, ⟨rfl, by simp [clear], by simp [clear, FV.contents, Spec.result]⟩,
      by simp [Spec.returned]⟩
  | assignFill n x =>
    simp [Spec.result] at hf
    refine ⟨⟨List.replicate n x ++ v.cells.drop n, n⟩, none, ?_, ⟨by simp; omega, hf, ?_⟩, ?_⟩
    · simp only [step, assignFill]
      rw [writeList_ok _ _ _ (by simp; omega)]
      simp [hf]
    · simp [FV.contents, Spec.result]
    · simp [Spec.returned]
  | assignList ys =>
    simp only [Spec.result] at hf
    refine ⟨⟨ys ++ v.cells.drop ys.length, ys.length⟩, none, ?_, ⟨by simp; omega, hf, ?_⟩, ?_⟩
    · simp only [step, assignList]
      rw [writeList_ok _ _ _ (by omega)]
      simp [hf]
    · simp [FV.contents, Spec.result]
    · simp [Spec.returned]
  | resizeFill n x =>
    have hf' : n ≤ v.cells.length := by
      simp [Spec.result, hlen] at hf; omega
    refine ⟨⟨v.cells.take v.len ++ List.replicate (n - v.len) x ++ v.cells.drop (v.len + (n - v.len)), n⟩,
      none, ?_, ⟨by simp; omega, hf', ?_⟩, ?_⟩
    · simp only [step, resizeFill]
      rw [writeList_ok _ _ _ (by simp; omega)]
      simp [hf']
    · simp only [FV.contents, Spec.result]
      apply List.ext_getElem?
      intro k
      simp only [List.getElem?_append, List.getElem?_take, List.getElem?_drop, List.length_append,
        List.length_take, List.getElem?_replicate, List.length_replicate]
      grind
    · simp [Spec.returned]
  | insert pos x =>
    obtain rfl := hm rfl
    simp only [Spec.positionsValid, hlen] at hp
    simp only [Spec.result, List.length_append, List.length_take, List.length_drop, hlen,
      List.length_singleton] at hf
    obtain ⟨c1, c2, e1, e2, hl1, ha⟩ := insert_core v pos [x] hp (by simp; omega)
    refine ⟨⟨c2, v.len + 1⟩, some pos, ?_, ha, by simp [Spec.returned]⟩
    have h1 : v.len < v.cells.length := by omega
    simp only [List.length_singleton, writeList] at e1 e2
    cases hw : write c1 pos x with
    | ok c =>
      rw [hw] at e2
      simp only [Outcome.bind_ok, Outcome.ok.injEq] at e2
      subst e2
      simp [step, insertArg, validate, h1, hp, e1, hw, Arg.deref]
    | _ => rw [hw] at e2; simp at e2
  | insertFill pos n x =>
    obtain rfl := hm rfl
    simp only [Spec.positionsValid, hlen] at hp
    simp only [Spec.result, List.length_append, List.length_take, List.length_drop, hlen,
      List.length_replicate] at hf
    by_cases hn : n = 0
    · subst hn
      refine ⟨v, some pos, ?_, ⟨rfl, hle, ?_⟩, by simp [Spec.returned]⟩
      · simp [step, insertFill, validate, hp, hle]
      · simp [Spec.result]
    · obtain ⟨c1, c2, e1, e2, hl1, ha⟩ := insert_core v pos (List.replicate n x) hp (by simp; omega)
      simp only [List.length_replicate] at e1 ha
      refine ⟨⟨c2, v.len + n⟩, some pos, ?_, ha, by simp [Spec.returned]⟩
      have h1 : v.len + n ≤ v.cells.length := by omega
      simp [step, insertFill, validate, h1, hp, e1, e2, hn]
  | insertRange pos ys =>
    obtain rfl := hm rfl
    simp only [Spec.positionsValid, hlen] at hp
    simp only [Spec.result, List.length_append, List.length_take, List.length_drop, hlen] at hf
    by_cases hn : ys.length = 0
    · refine ⟨v, some pos, ?_, ⟨rfl, hle, ?_⟩, by simp [Spec.returned]⟩
      · simp [step, insertRange, validate, hp, hle, hn]
      · simp [Spec.result, List.length_eq_zero_iff.mp hn]
    · obtain ⟨c1, c2, e1, e2, hl1, ha⟩ := insert_core v pos ys hp (by omega)
      refine ⟨⟨c2, v.len + ys.length⟩, some pos, ?_, ha, by simp [Spec.returned]⟩
      have h1 : v.len + ys.length ≤ v.cells.length := by omega
      simp only [step, insertRange, validate, h1, hp, e1, e2, hn, decide_true, Outcome.assert_true,
        Outcome.bind_ok, if_false]
  | insertIList pos ys =>
    obtain rfl := hm rfl
    simp only [Spec.positionsValid, hlen] at hp
    simp only [Spec.result, List.length_append, List.length_take, List.length_drop, hlen] at hf
    by_cases hn : ys.length = 0
    · refine ⟨v, some pos, ?_, ⟨rfl, hle, ?_⟩, by simp [Spec.returned]⟩
      · simp [step, insertIList, hle, hn]
      · simp [Spec.result, List.length_eq_zero_iff.mp hn]
    · obtain ⟨c1, c2, e1, e2, hl1, ha⟩ := insert_core v pos ys hp (by omega)
      refine ⟨⟨c2, v.len + ys.length⟩, some pos, ?_, ha, by simp [Spec.returned]⟩
      have h1 : v.len + ys.length ≤ v.cells.length := by omega
      simp only [step, insertIList, h1, e1, e2, hn, decide_true, Outcome.assert_true,
        Outcome.bind_ok, if_false]
  | erase pos =>
    simp only [Spec.positionsValid, hlen] at hp
    have h0 : v.len ≠ 0 := by omega
    by_cases hlast : pos + 1 = v.len
    · refine ⟨⟨v.cells, v.len - 1⟩, some pos, ?_, ⟨rfl, by simp; omega, ?_⟩, by simp [Spec.returned]⟩
      · simp [step, erase, h0, validate, Nat.le_of_lt hp, hlast]
      · simp only [FV.contents, Spec.result] at hlen ⊢
        rw [List.drop_eq_nil_of_le (by rw [hlen]; omega), List.take_take, List.append_nil]
        congr 1; omega
    · obtain ⟨c', e, hl, ht⟩ := shift_left m (c := v.cells) (src := pos + 1) (last := v.len) (dst := pos)
        (by omega) (by omega) hle
      refine ⟨⟨c', v.len - 1⟩, some pos, ?_, ⟨hl, by simp; omega, ?_⟩, by simp [Spec.returned]⟩
      · simp [step, erase, h0, validate, Nat.le_of_lt hp, hlast, e]
      · have : pos + (v.len - (pos + 1)) = v.len - 1 := by omega
        rw [this] at ht
        simp only [FV.contents, Spec.result]
        rw [ht]
        apply List.ext_getElem?
        intro k
        simp only [List.getElem?_append, List.getElem?_take, List.getElem?_drop, List.length_take]
        grind
  | eraseRange a b =>
    simp only [Spec.positionsValid, hlen] at hp
    by_cases h0 : v.len = 0
    · refine ⟨v, some 0, by simp [step, eraseRange, h0], ⟨rfl, hle, ?_⟩, ?_⟩
      · simp only [FV.contents, Spec.result]; simp [h0]
      · simp [Spec.returned]; omega
    · by_cases hab : a = b
      · subst hab
        refine ⟨v, some 0, by simp [step, eraseRange, h0], ⟨rfl, hle, ?_⟩, ?_⟩
        · simp [Spec.result]
        · simp [Spec.returned]
      · have hab' : ¬ b < a := by omega
        have hne : ∀ a', Op.eraseRange a b ≠ (Op.eraseRange a' a' : Op T) := by
          intro a' e; injection e with e1 e2; omega
        by_cases hb : b = v.len
        · refine ⟨⟨v.cells, v.len - (b - a)⟩, some a, ?_, ⟨rfl, by simp; omega, ?_⟩, ?_⟩
          · have : a ≤ v.len := by omega
            subst hb
            simp [step, eraseRange, h0, hab, hab', validate, this]
          · simp only [FV.contents, Spec.result] at hlen ⊢
            rw [List.drop_eq_nil_of_le (by rw [hlen]; omega), List.take_take, List.append_nil]
            congr 1; omega
          · exact ⟨by simp [Spec.returned], by simp [Spec.returned], fun a' e => absurd e (hne a')⟩
        · obtain ⟨c', e, hl, ht⟩ := shift_left m (c := v.cells) (src := b) (last := v.len) (dst := a)
            (by omega) (by omega) hle
          refine ⟨⟨c', v.len - (b - a)⟩, some a, ?_, ⟨hl, by simp; omega, ?_⟩, ?_⟩
          · have : a ≤ v.len := by omega
            simp [step, eraseRange, h0, hab, hab', validate, hp.2, this, hb, e]
          · have : a + (v.len - b) = v.len - (b - a) := by omega
            rw [this] at ht
            simp only [FV.contents, Spec.result]
            rw [ht]
            apply List.ext_getElem?
            intro k
            simp only [List.getElem?_append, List.getElem?_take, List.getElem?_drop, List.length_take]
            grind
          · exact ⟨by simp [Spec.returned], by simp [Spec.returned], fun a' e => absurd e (hne a')⟩
  | setAt i x =>
    simp only [Spec.positionsValid, hlen] at hp
    refine ⟨⟨v.cells.set i x, v.len⟩, none, ?_, ⟨by simp, hle, ?_⟩, by simp [Spec.returned]⟩
    · have : i < v.cells.length := by omega
      simp [step, setAt, write_ok, this]
    · simp only [FV.contents, Spec.result]
      rw [List.take_set]

theorem run_sim (cap : Nat) (ops : List (Op T)) : ∀ (v : FV T) (xs ys : List T),
    Abs cap v xs → Spec.History cap xs ops ys → ∃ v', run .memmove v ops = .ok v' ∧ Abs cap v' ys := by
  induction ops with
  | nil => intro v xs ys hv h; cases h; exact ⟨v, rfl, hv⟩
  | cons op ops ih =>
    intro v xs ys hv h
    cases h with
    | cons ha hr =>
      obtain ⟨v', r, e, hv', _⟩ := step_sim .memmove cap v xs op (fun _ => rfl) hv ha
      obtain ⟨v'', e', h''⟩ := ih v' _ _ hv' hr
      exact ⟨v'', by simp [run, e, e'], h''⟩

theorem eqLoop_spec [DecidableEq T] (a b : List T) : ∀ (n i : Nat), i + n ≤ a.length → i + n ≤ b.length →
    equalLoop a b i n = .ok (decide ((a.drop i).take n = (b.drop i).take n)) := by
  intro n
  induction n with
  | zero => intro i _ _; simp [equalLoop]
  | succ n ih =>
    intro i h1 h2
    have ha : i < a.length := by omega
    have hb : i < b.length := by omega
    simp only [equalLoop, read_ok ha, read_ok hb, Outcome.bind_ok]
    rw [List.drop_eq_getElem_cons ha, List.drop_eq_getElem_cons hb]
    simp only [List.take_succ_cons, List.cons.injEq]
    split
    · rename_i h; rw [ih _ (by omega) (by omega)]; simp [h]
    · rename_i h; simp [h]

end Verif.FixedVector
