import Verif.Json.SpillModel
import Verif.Json.Props

/-!
# Lemmas about the writer of JSON and what it has written when it throws
-/

namespace Verif.Json

/-! ## Strings -/

theorem flush_out (e : Esc) : e.out <+: e.flush.out := by
  rw [Esc.flush]
  split
  · exact ⟨e.buf, rfl⟩
  · exact List.prefix_refl _

theorem put_out {e e1 : Esc} {t : Bytes} {n : Nat} (h : e.put t n = some e1) : e1.out = e.out := by
  rw [Esc.put] at h
  split at h
  · cases h; rfl
  · cases h

/-- a round adds to what has been written -/
theorem escByte_out {h : Handler} {ascii : Bool} {e e1 : Esc} {b : Nat}
    (hs : escByte h ascii e b = .next e1 ∨ escByte h ascii e b = .again e1) : e.out <+: e1.out := by
  have fl : ∀ {e0 e2 : Esc} {t : Bytes} {n : Nat}, e0.put t n = some e2 → e0.out <+: e2.flush.out := by
    intro e0 e2 t n hp
    rw [← put_out hp]
    exact flush_out e2
  simp only [escByte] at hs
  split at hs
  · split at hs
    · simp at hs
    · rename_i e2 hp
      simp only [EscStep.next.injEq, reduceCtorEq, or_false] at hs
      subst hs
      exact fl (e0 := { e with state := (decode e.state e.codep b).1, codep := (decode e.state e.codep b).2 }) hp
  · split at hs
    · cases h with
      | strict => simp at hs
      | ignore =>
        simp only at hs
        split at hs <;> simp at hs <;> subst hs <;> exact List.prefix_refl _
      | replace =>
        simp only at hs
        split at hs
        · simp at hs
        · rename_i e2 hp
          have := fl hp
          split at hs <;> simp at hs <;> subst hs <;> exact this
    · split at hs
      · simp at hs; subst hs; exact List.prefix_refl _
      · split at hs
        · simp at hs
        · rename_i e2 hp
          simp at hs; subst hs
          have := put_out hp
          simp only at this ⊢
          rw [this]
          exact List.prefix_refl _

/-- what has been written is at the beginning of the text -/
theorem escLoop_out (h : Handler) (ascii : Bool) : ∀ (n : Nat) (e : Esc) (s t : Bytes),
    escLoop h ascii n e s = .ok t → e.out <+: t
  | 0, _, _, _, ht => by cases ht
  | n + 1, e, [], t, ht => by
    simp only [escLoop] at ht
    split at ht
    · cases ht; exact List.prefix_append _ _
    · cases h with
      | strict => cases ht
      | ignore => cases ht; exact List.prefix_append _ _
      | replace => cases ht; rw [List.append_assoc]; exact List.prefix_append _ _
  | n + 1, e, b :: s, t, ht => by
    rw [escLoop] at ht
    cases hb : escByte h ascii e b with
    | next e1 =>
      rw [hb] at ht
      exact (escByte_out (.inl hb)).trans (escLoop_out h ascii n e1 s t ht)
    | again e1 =>
      rw [hb] at ht
      exact (escByte_out (.inr hb)).trans (escLoop_out h ascii n e1 _ t ht)
    | throws => rw [hb] at ht; cases ht
    | ub => rw [hb] at ht; cases ht

/-- a round that does not throw does not ask what to do with an error -/
theorem escByte_strict (h : Handler) (ascii : Bool) (e : Esc) (b : Nat) :
    escByte .strict ascii e b = .throws ∨ escByte .strict ascii e b = escByte h ascii e b := by
  simp only [escByte]
  by_cases h0 : (decode e.state e.codep b).1 = 0
  · simp only [h0, if_true]; exact .inr trivial
  · by_cases h1 : (decode e.state e.codep b).1 = 1
    · simp [h1]
    · simp only [h0, h1, if_false]; exact .inr trivial

theorem escByte_strict_again (ascii : Bool) (e e1 : Esc) (b : Nat) : escByte .strict ascii e b ≠ .again e1 := by
  simp only [escByte]
  repeat' split
  all_goals simp_all

/-- the loop: the text, if there is one, has been written; if it throws, another handler writes the same, and more -/
theorem spillLoop_eq (h : Handler) (ascii : Bool) : ∀ (n : Nat) (e : Esc) (s : Bytes),
    (∀ t, escLoop h ascii n e s = .ok t → spillLoop h ascii n e s = (t, .ok ())) ∧
    (spillLoop h ascii n e s).2 = (escLoop h ascii n e s).bind fun _ => .ok ()
  | 0, e, s => ⟨fun _ h => (by cases h), rfl⟩
  | n + 1, e, [] => by
    simp only [escLoop, spillLoop]
    by_cases h0 : e.state = 0
    · simp [h0, Outcome.bind]
    · cases h <;> simp [h0, Outcome.bind]
  | n + 1, e, b :: s => by
    rw [escLoop, spillLoop]
    cases hb : escByte h ascii e b with
    | next e1 => exact spillLoop_eq h ascii n e1 s
    | again e1 => exact spillLoop_eq h ascii n e1 _
    | throws => exact ⟨fun _ h => (by cases h), rfl⟩
    | ub => exact ⟨fun _ h => (by cases h), rfl⟩

theorem spillLoop_strict (h : Handler) (ascii : Bool) : ∀ (n : Nat) (e : Esc) (s t' : Bytes),
    escLoop h ascii n e s = .ok t' →
      (∀ t, escLoop .strict ascii n e s = .ok t → t = t') ∧ (spillLoop .strict ascii n e s).1 <+: t'
  | 0, _, _, _, h => by cases h
  | n + 1, e, [], t', ht => by
    have ho := escLoop_out h ascii (n + 1) e [] t' ht
    simp only [escLoop, spillLoop] at ht ⊢
    by_cases h0 : e.state = 0
    · rw [if_pos h0] at ht
      cases ht
      rw [if_pos h0, if_pos h0]
      exact ⟨fun t h => by cases h; rfl, List.prefix_refl _⟩
    · rw [if_neg h0, if_neg h0]
      exact ⟨fun t h => (by cases h), ho⟩
  | n + 1, e, b :: s, t', ht => by
    have ho := escLoop_out h ascii (n + 1) e (b :: s) t' ht
    rw [escLoop] at ht ⊢
    rw [spillLoop]
    rcases escByte_strict h ascii e b with hb | hb
    · rw [hb]
      exact ⟨fun t h => (by cases h), ho⟩
    · rw [hb]
      cases hc : escByte h ascii e b with
      | next e1 => rw [hc] at ht; exact spillLoop_strict h ascii n e1 s t' ht
      | again e1 => rw [hc] at hb; exact absurd hb (escByte_strict_again ascii e e1 b)
      | throws => rw [hc] at ht; cases ht
      | ub => rw [hc] at ht; cases ht

/-! ## Parts of the writer, one after the other -/

/-- texts, one after the other -/
def thenText (y : Outcome (Bytes × α)) (g : α → Outcome (Bytes × β)) : Outcome (Bytes × β) :=
  y.bind fun p => (g p.2).bind fun q => .ok (p.1 ++ q.1, q.2)

/-- where the writer has thrown: in the string `s`, of those in `T`; another writer, whose text is `t'`, has
written the same before it -/
def Stuck (h' : Handler) (ascii : Bool) (T : Bytes → Prop) (k : String) (w t' : Bytes) : Prop :=
  ∃ p s f e r, T s ∧ spillEscaped .strict ascii s = (f, .throws k) ∧ w = p ++ 0x22 :: f ∧
    dumpEscaped h' ascii s = .ok e ∧ t' = p ++ 0x22 :: (e ++ 0x22 :: r)

theorem Stuck.within {h' : Handler} {ascii : Bool} {T : Bytes → Prop} {k : String} {w t' : Bytes}
    (h : Stuck h' ascii T k w t') (a b : Bytes) : Stuck h' ascii T k (a ++ w) (a ++ t' ++ b) := by
  obtain ⟨p, s, f, e, r, hT, hs, rfl, he, rfl⟩ := h
  exact ⟨a ++ p, s, f, e, r ++ b, hT, hs, by simp, he, by simp⟩

/-- a part of the strict writer `x`, its text `y`, and the text `y'` of a writer with another handler -/
def Agree (h' : Handler) (ascii : Bool) (T : Bytes → Prop) (x : Wr α) (y y' : Outcome (Bytes × α)) : Prop :=
  (x.2 = y.bind fun p => .ok p.2) ∧ (∀ t a, y = .ok (t, a) → x.1 = t) ∧
  (∀ t' a', y' = .ok (t', a') → (∀ t a, y = .ok (t, a) → t = t' ∧ a = a') ∧
    (∀ k, y = .throws k → Stuck h' ascii T k x.1 t'))

theorem Agree.mono {h' : Handler} {ascii : Bool} {T T' : Bytes → Prop} {x : Wr α} {y y' : Outcome (Bytes × α)}
    (h : Agree h' ascii T x y y') (hT : ∀ s, T s → T' s) : Agree h' ascii T' x y y' := by
  refine ⟨h.1, h.2.1, fun t' a' hy' => ⟨(h.2.2 t' a' hy').1, fun k hk => ?_⟩⟩
  obtain ⟨p, s, f, e, r, ht, h1⟩ := (h.2.2 t' a' hy').2 k hk
  exact ⟨p, s, f, e, r, hT s ht, h1⟩

theorem Agree.then {h' : Handler} {ascii : Bool} {T : Bytes → Prop} {x : Wr α} {y y' : Outcome (Bytes × α)}
    {f : α → Wr β} {g g' : α → Outcome (Bytes × β)} (h : Agree h' ascii T x y y')
    (hf : ∀ a, Agree h' ascii T (f a) (g a) (g' a)) : Agree h' ascii T (x.bind f) (thenText y g) (thenText y' g') := by
  obtain ⟨x1, x2⟩ := x
  obtain ⟨h1, h2, h3⟩ := h
  simp only at h1 h2 h3
  subst h1
  cases y with
  | ok p =>
    obtain ⟨t, a⟩ := p
    have := h2 t a rfl
    subst this
    obtain ⟨f1, f2, f3⟩ := hf a
    refine ⟨?_, ?_, ?_⟩
    · simp only [Wr.bind, thenText, Outcome.bind, f1]
      cases g a <;> rfl
    · intro t b ht
      simp only [thenText, Outcome.bind] at ht
      cases hg : g a with
      | ok q =>
        obtain ⟨u, c⟩ := q
        rw [hg] at ht
        cases ht
        simp only [Wr.bind, Outcome.bind, f2 _ _ hg]
      | _ => rw [hg] at ht; cases ht
    · intro t' b' ht'
      cases y' with
      | ok p' =>
        obtain ⟨t1, a1⟩ := p'
        obtain ⟨rfl, rfl⟩ := (h3 t1 a1 rfl).1 x1 a rfl
        simp only [thenText, Outcome.bind] at ht'
        cases hg' : g' a with
        | ok q' =>
          obtain ⟨u', c'⟩ := q'
          rw [hg'] at ht'
          cases ht'
          refine ⟨fun t b ht => ?_, fun k hk => ?_⟩
          · simp only [thenText, Outcome.bind] at ht
            cases hg : g a with
            | ok q =>
              obtain ⟨u, c⟩ := q
              rw [hg] at ht
              cases ht
              obtain ⟨rfl, rfl⟩ := (f3 u' c' hg').1 u c hg
              exact ⟨rfl, rfl⟩
            | _ => rw [hg] at ht; cases ht
          · simp only [thenText, Outcome.bind] at hk
            cases hg : g a with
            | throws k' =>
              rw [hg] at hk
              cases hk
              have := ((f3 u' c' hg').2 k hg).within x1 []
              simpa [Wr.bind, Outcome.bind] using this
            | _ => rw [hg] at hk; cases hk
        | _ => rw [hg'] at ht'; cases ht'
      | _ => cases ht'
  | throws k =>
    refine ⟨rfl, fun t a h => (by cases h), fun t' b' ht' => ⟨fun t a h => (by cases h), fun k' hk' => ?_⟩⟩
    cases hk'
    cases y' with
    | ok p' =>
      obtain ⟨t1, a1⟩ := p'
      have hst := (h3 t1 a1 rfl).2 k rfl
      simp only [thenText, Outcome.bind] at ht'
      cases hg' : g' a1 with
      | ok q' =>
        rw [hg'] at ht'
        cases ht'
        simpa [Wr.bind, Outcome.bind] using hst.within [] q'.1
      | _ => rw [hg'] at ht'; cases ht'
    | _ => cases ht'
  | assertFail => exact ⟨rfl, fun t a h => (by cases h), fun t' b' _ => ⟨fun t a h => (by cases h), fun k h => (by cases h)⟩⟩
  | outOfRange => exact ⟨rfl, fun t a h => (by cases h), fun t' b' _ => ⟨fun t a h => (by cases h), fun k h => (by cases h)⟩⟩
  | ub => exact ⟨rfl, fun t a h => (by cases h), fun t' b' _ => ⟨fun t a h => (by cases h), fun k h => (by cases h)⟩⟩
  | diverges => exact ⟨rfl, fun t a h => (by cases h), fun t' b' _ => ⟨fun t a h => (by cases h), fun k h => (by cases h)⟩⟩

/-- the text of a part that does not depend on the handler -/
def textOf (t : Outcome Bytes) : Outcome (Bytes × Unit) := t.bind fun t => .ok (t, ())

theorem agree_pure {h' : Handler} {ascii : Bool} {T : Bytes → Prop} (a : α) :
    Agree h' ascii T ([], .ok a) (.ok ([], a)) (.ok ([], a)) := by
  refine ⟨rfl, fun t a h => by cases h; rfl, fun t' a' h => ⟨fun t b h2 => ?_, fun k hk => (by cases hk)⟩⟩
  cases h; cases h2; exact ⟨rfl, rfl⟩

theorem agree_put {h' : Handler} {ascii : Bool} {T : Bytes → Prop} (t : Bytes) :
    Agree h' ascii T (put t) (.ok (t, ())) (.ok (t, ())) := by
  refine ⟨rfl, fun t a h => by cases h; rfl, fun t' a' h => ⟨fun t b h2 => ?_, fun k hk => (by cases hk)⟩⟩
  cases h; cases h2; exact ⟨rfl, rfl⟩

theorem agree_putText {h' : Handler} {ascii : Bool} {T : Bytes → Prop} (t : Outcome Bytes) (ht : ∀ k, t ≠ .throws k) :
    Agree h' ascii T (putText t) (textOf t) (textOf t) := by
  cases t with
  | ok t => exact agree_put t
  | throws k => exact absurd rfl (ht k)
  | _ => exact ⟨rfl, fun t a h => (by cases h), fun t' b' h => (by cases h)⟩

theorem agree_quoted {h' : Handler} {ascii : Bool} {T : Bytes → Prop} {s : Bytes} (hT : T s) :
    Agree h' ascii T ((put [0x22]).bind fun _ => (spillEscaped .strict ascii s).bind fun _ => put [0x22])
      (textOf (dumpString ⟨false, ascii, 0, .strict⟩ s)) (textOf (dumpString ⟨false, ascii, 0, h'⟩ s)) := by
  have h1 := spillLoop_eq .strict ascii (2 * s.length + 1) ⟨0, 0, [], 0, 0, []⟩ s
  have h2 := spillLoop_strict h' ascii (2 * s.length + 1) ⟨0, 0, [], 0, 0, []⟩ s
  simp only [Agree, Stuck, textOf, dumpString, dumpEscaped, spillEscaped, Wr.bind, put] at *
  generalize hx : spillLoop .strict ascii (2 * s.length + 1) ⟨0, 0, [], 0, 0, []⟩ s = x at *
  obtain ⟨w, x2⟩ := x
  simp only at h1 h2
  obtain ⟨h1, rfl⟩ := h1
  cases hs : escLoop .strict ascii (2 * s.length + 1) ⟨0, 0, [], 0, 0, []⟩ s with
  | ok t =>
    obtain ⟨rfl, _⟩ := Prod.mk.inj (h1 t hs)
    refine ⟨rfl, fun t' a h => by cases h; rfl, fun t' a' h => ⟨fun t b h3 => ?_, fun k hk => (by cases hk)⟩⟩
    cases h3
    cases he : escLoop h' ascii (2 * s.length + 1) ⟨0, 0, [], 0, 0, []⟩ s with
    | ok e =>
      rw [he] at h
      cases h
      have := (h2 e he).1 w hs
      subst this
      exact ⟨rfl, trivial⟩
    | _ => rw [he] at h; cases h
  | throws k =>
    refine ⟨rfl, fun t a h => (by cases h), fun t' b' ht' => ⟨fun t a h => (by cases h), fun k' hk' => ?_⟩⟩
    cases hk'
    cases he : escLoop h' ascii (2 * s.length + 1) ⟨0, 0, [], 0, 0, []⟩ s with
    | ok e =>
      rw [he] at ht'
      cases ht'
      exact ⟨[], s, w, e, [], hT, hx.trans (by rw [hs]; rfl), rfl, he, rfl⟩
    | _ => rw [he] at ht'; cases ht'
  | _ => exact ⟨rfl, fun t a h => (by cases h), fun t' b' _ => ⟨fun t a h => (by cases h), fun k h => (by cases h)⟩⟩

theorem escText_short (codep byte : Nat) : (escText false codep byte).1.length ≤ 6 := by
  simp only [escText, Bool.false_eq_true, false_and, or_false]
  repeat' split
  all_goals first
    | (simp; done)
    | (simp [hexEscape]; done)
    | (rename_i h1 h2; omega)

/-- a round of the strict writer puts at most six bytes into the buffer, and writes it out only if it is nearly full -/
theorem escByte_short {e e1 : Esc} {b : Nat} (hs : escByte .strict false e b = .next e1)
    (hb : e.buf.length + 6 ≤ 499) : e1.out = e.out ∧ e1.buf.length ≤ e.buf.length + 6 := by
  have put_buf : ∀ {e0 e2 : Esc} {t : Bytes} {n : Nat}, e0.put t n = some e2 → e2.out = e0.out ∧ e2.buf = e0.buf ++ t := by
    intro e0 e2 t n h
    rw [Esc.put] at h
    split at h
    · cases h; exact ⟨rfl, rfl⟩
    · cases h
  simp only [escByte] at hs
  split at hs
  · split at hs
    · cases hs
    · rename_i e2 hp
      cases hs
      obtain ⟨h1, h2⟩ := put_buf hp
      have h3 := escText_short (decode e.state e.codep b).2 b
      have h4 : e2.buf.length ≤ e.buf.length + 6 := by rw [h2, List.length_append]; simp only; omega
      have h5 : e2.flush = e2 := by rw [Esc.flush, if_neg (by omega)]
      simp only [h5]
      exact ⟨h1, h4⟩
  · split at hs
    · cases hs
    · simp only [Bool.false_eq_true, if_false] at hs
      split at hs
      · cases hs
      · rename_i e2 hp
        cases hs
        obtain ⟨h1, h2⟩ := put_buf hp
        refine ⟨h1, ?_⟩
        simp only [h2, List.length_append, List.length_singleton]
        omega

theorem spillLoop_short : ∀ (n : Nat) (e : Esc) (s : Bytes) (k : String), e.buf.length + 6 * s.length ≤ 499 →
    (spillLoop .strict false n e s).2 = .throws k → (spillLoop .strict false n e s).1 = e.out
  | 0, _, _, _, _, h => by cases h
  | n + 1, e, [], k, hl, h => by
    simp only [spillLoop] at h ⊢
    split at h
    · cases h
    · rename_i h0; rw [if_neg h0]
  | n + 1, e, b :: s, k, hl, h => by
    simp only [spillLoop] at h ⊢
    simp only [List.length_cons] at hl
    cases he : escByte .strict false e b with
    | next e1 =>
      rw [he] at h
      obtain ⟨h1, h2⟩ := escByte_short he (by omega)
      simp only at h ⊢
      rw [spillLoop_short n e1 s k (by omega) h, h1]
    | again e1 => exact absurd he (escByte_strict_again false e e1 b)
    | throws => rfl
    | ub => rfl

theorem spillEscaped_short {s f : Bytes} {k : String} (hs : s.length ≤ 83)
    (h : spillEscaped .strict false s = (f, .throws k)) : f = [] := by
  have := spillLoop_short (2 * s.length + 1) ⟨0, 0, [], 0, 0, []⟩ s k (by simp only [List.length_nil]; omega)
    (by rw [show spillLoop _ _ _ _ _ = _ from h])
  rw [show spillLoop _ _ _ _ _ = _ from h] at this
  exact this

/-! ## Values -/

theorem writeIndent_throws (ind : Bytes) (n : Nat) (k : String) : writeIndent ind n ≠ .throws k := by
  rw [writeIndent]
  repeat' split
  all_goals simp

theorem dumpInteger_throws (x : Int) (k : String) : dumpInteger x ≠ .throws k := by
  simp only [dumpInteger]
  repeat' split
  all_goals simp

theorem Wr.bind_assoc (x : Wr α) (f : α → Wr β) (g : β → Wr γ) : (x.bind f).bind g = x.bind fun a => (f a).bind g := by
  obtain ⟨w, x⟩ := x
  cases x with
  | ok a =>
    simp only [Wr.bind]
    cases (f a).2 <;> simp
  | _ => rfl

theorem put_bind (a b : Bytes) (f : Unit → Wr β) : (put (a ++ b)).bind f = (put a).bind fun _ => (put b).bind f := by
  simp [put, Wr.bind]

theorem Agree.congr {h' : Handler} {ascii : Bool} {T : Bytes → Prop} {x x1 : Wr α} {y y' z z' : Outcome (Bytes × α)}
    (h : Agree h' ascii T x y y') (hx : x = x1) (hy : y = z) (hy' : y' = z') : Agree h' ascii T x1 z z' := by
  rw [← hx, ← hy, ← hy']; exact h

theorem agree_string {o : Opt} {h' : Handler} (ho : o.handler = .strict) {T : Bytes → Prop} {s : Bytes} (hT : T s) :
    Agree h' o.ascii T ((put [0x22]).bind fun _ => (spillEscaped o.handler o.ascii s).bind fun _ => put [0x22])
      (textOf (dumpString o s)) (textOf (dumpString { o with handler := h' } s)) := by
  rw [ho]
  refine (agree_quoted hT).congr rfl ?_ rfl
  simp only [dumpString, ho]

section
variable (fl : Floats F) (o : Opt) (h' : Handler)

/-- the indentation of an element or a member -/
theorem agree_indent (T : Bytes → Prop) (cur : Nat) (ind : Bytes) :
    Agree h' o.ascii T (if o.pretty then putText (writeIndent ind cur) else put [])
      (textOf (if o.pretty then writeIndent ind cur else .ok [])) (textOf (if o.pretty then writeIndent ind cur else .ok [])) := by
  cases o.pretty
  · exact agree_put []
  · exact agree_putText _ (writeIndent_throws ind cur)

mutual
theorem agree_value (ho : o.handler = .strict) (v : Json F) (cur : Nat) (ind : Bytes) :
    Agree h' o.ascii (· ∈ strings v) (spillV fl o cur ind v) (dumpV fl o cur ind v)
      (dumpV fl { o with handler := h' } cur ind v) := by
  have lit : ∀ t : Bytes, Agree h' o.ascii (· ∈ strings v) ((put t).bind fun _ => ([], .ok ind)) (.ok (t, ind)) (.ok (t, ind)) := by
    intro t
    have := (agree_put (h' := h') (ascii := o.ascii) (T := (· ∈ strings v)) t).then (fun _ => agree_pure ind)
    simpa [thenText, Outcome.bind] using this
  have num : ∀ x : Int, Agree h' o.ascii (· ∈ strings v) ((putText (dumpInteger x)).bind fun _ => ([], .ok ind))
      ((dumpInteger x).bind fun t => .ok (t, ind)) ((dumpInteger x).bind fun t => .ok (t, ind)) := by
    intro x
    have := (agree_putText (h' := h') (ascii := o.ascii) (T := (· ∈ strings v)) _ (dumpInteger_throws x)).then (fun _ => agree_pure ind)
    refine this.congr rfl ?_ ?_ <;> cases dumpInteger x <;> simp [thenText, textOf, Outcome.bind]
  match v with
  | .null => rw [spillV, dumpV, dumpV]; exact lit _
  | .bool true => rw [spillV, dumpV, dumpV]; exact lit _
  | .bool false => rw [spillV, dumpV, dumpV]; exact lit _
  | .int i => rw [spillV, dumpV, dumpV]; exact num i
  | .uint n => rw [spillV, dumpV, dumpV]; exact num n
  | .float x => rw [spillV, dumpV, dumpV]; exact lit _
  | .str s =>
    have := (agree_string (h' := h') ho (T := (· ∈ strings (.str s : Json F))) (s := s) (by simp [strings])).then (fun _ => agree_pure ind)
    rw [spillV, dumpV, dumpV]
    refine this.congr ?_ ?_ ?_
    · simp only [Wr.bind_assoc]
    · cases dumpString o s <;> simp [thenText, textOf, Outcome.bind]
    · cases dumpString { o with handler := h' } s <;> simp [thenText, textOf, Outcome.bind]
  | .arr xs =>
    rw [spillV, dumpV, dumpV]
    by_cases he : xs.isEmpty = true
    · simp only [he, if_true]; exact lit _
    · by_cases hp : o.pretty = true
      · simp only [he, hp, if_true, Bool.false_eq_true, if_false]
        have hl := agree_elements ho xs (cur + o.step) (growIndent ind (cur + o.step))
        simp only [hp] at hl
        have := (agree_put [0x5B, 0x0A]).then fun _ => hl.then fun ind' => (agree_put [0x0A]).then fun _ =>
          (agree_putText _ (writeIndent_throws ind' cur)).then fun _ => (agree_put [0x5D]).then fun _ => agree_pure ind'
        refine (Agree.congr this rfl ?_ ?_).mono (fun s hs => by rw [strings]; exact hs)
        · cases dumpL fl o (cur + o.step) (growIndent ind (cur + o.step)) xs with
          | ok p => cases hw : writeIndent p.2 cur <;> simp [thenText, textOf, Outcome.bind, hw]
          | _ => rfl
        · cases dumpL fl ⟨true, o.ascii, o.step, h'⟩ (cur + o.step) (growIndent ind (cur + o.step)) xs with
          | ok p => cases hw : writeIndent p.2 cur <;> simp [thenText, textOf, Outcome.bind, hw]
          | _ => rfl
      · simp only [he, hp, Bool.false_eq_true, if_false]
        have hl := agree_elements ho xs cur ind
        simp only [hp] at hl
        have := (agree_put [0x5B]).then fun _ => hl.then fun ind' => (agree_put [0x5D]).then fun _ => agree_pure ind'
        refine (Agree.congr this rfl ?_ ?_).mono (fun s hs => by rw [strings]; exact hs)
        · cases dumpL fl o cur ind xs <;> simp [thenText, Outcome.bind]
        · cases dumpL fl ⟨false, o.ascii, o.step, h'⟩ cur ind xs <;> simp [thenText, Outcome.bind]
  | .obj ms =>
    rw [spillV, dumpV, dumpV]
    by_cases he : ms.isEmpty = true
    · simp only [he, if_true]; exact lit _
    · by_cases hp : o.pretty = true
      · simp only [he, hp, if_true, Bool.false_eq_true, if_false]
        have hl := agree_members ho ms (cur + o.step) (growIndent ind (cur + o.step))
        simp only [hp] at hl
        have := (agree_put [0x7B, 0x0A]).then fun _ => hl.then fun ind' => (agree_put [0x0A]).then fun _ =>
          (agree_putText _ (writeIndent_throws ind' cur)).then fun _ => (agree_put [0x7D]).then fun _ => agree_pure ind'
        refine (Agree.congr this rfl ?_ ?_).mono (fun s hs => by rw [strings]; exact hs)
        · cases dumpM fl o (cur + o.step) (growIndent ind (cur + o.step)) ms with
          | ok p => cases hw : writeIndent p.2 cur <;> simp [thenText, textOf, Outcome.bind, hw]
          | _ => rfl
        · cases dumpM fl ⟨true, o.ascii, o.step, h'⟩ (cur + o.step) (growIndent ind (cur + o.step)) ms with
          | ok p => cases hw : writeIndent p.2 cur <;> simp [thenText, textOf, Outcome.bind, hw]
          | _ => rfl
      · simp only [he, hp, Bool.false_eq_true, if_false]
        have hl := agree_members ho ms cur ind
        simp only [hp] at hl
        have := (agree_put [0x7B]).then fun _ => hl.then fun ind' => (agree_put [0x7D]).then fun _ => agree_pure ind'
        refine (Agree.congr this rfl ?_ ?_).mono (fun s hs => by rw [strings]; exact hs)
        · cases dumpM fl o cur ind ms <;> simp [thenText, Outcome.bind]
        · cases dumpM fl ⟨false, o.ascii, o.step, h'⟩ cur ind ms <;> simp [thenText, Outcome.bind]
theorem agree_elements (ho : o.handler = .strict) (xs : List (Json F)) (cur : Nat) (ind : Bytes) :
    Agree h' o.ascii (· ∈ stringsL xs) (spillL fl o cur ind xs) (dumpL fl o cur ind xs)
      (dumpL fl { o with handler := h' } cur ind xs) := by
  match xs with
  | [] => rw [spillL, dumpL, dumpL]; exact agree_pure ind
  | v :: vs =>
    have hv := (agree_value ho v cur ind).mono (T' := (· ∈ stringsL (v :: vs)))
      (fun s hs => by rw [stringsL]; exact List.mem_append.2 (.inl hs))
    have hl := fun ind' => (agree_elements ho vs cur ind').mono (T' := (· ∈ stringsL (v :: vs)))
      (fun s hs => by rw [stringsL]; exact List.mem_append.2 (.inr hs))
    rw [spillL, dumpL, dumpL]
    by_cases he : vs.isEmpty = true
    · simp only [he, if_true]
      have := (agree_indent o h' _ cur ind).then fun _ => hv.then fun ind' => agree_pure ind'
      refine this.congr rfl ?_ ?_
      · cases (if o.pretty = true then writeIndent ind cur else .ok []) with
        | ok c => cases dumpV fl o cur ind v <;> simp [thenText, textOf, Outcome.bind]
        | _ => rfl
      · cases (if o.pretty = true then writeIndent ind cur else .ok []) with
        | ok c => cases dumpV fl { o with handler := h' } cur ind v <;> simp [thenText, textOf, Outcome.bind]
        | _ => rfl
    · simp only [he, Bool.false_eq_true, if_false]
      have := (agree_indent o h' _ cur ind).then fun _ => hv.then fun ind' =>
        (agree_put (if o.pretty = true then [0x2C, 0x0A] else [0x2C])).then fun _ => hl ind'
      refine this.congr rfl ?_ ?_
      · cases (if o.pretty = true then writeIndent ind cur else .ok []) with
        | ok c =>
          cases dumpV fl o cur ind v with
          | ok p => cases hd : dumpL fl o cur p.2 vs <;> simp [thenText, textOf, Outcome.bind, hd]
          | _ => rfl
        | _ => rfl
      · cases (if o.pretty = true then writeIndent ind cur else .ok []) with
        | ok c =>
          cases dumpV fl { o with handler := h' } cur ind v with
          | ok p => cases hd : dumpL fl { o with handler := h' } cur p.2 vs <;> simp [thenText, textOf, Outcome.bind, hd]
          | _ => rfl
        | _ => rfl
theorem agree_members (ho : o.handler = .strict) (ms : List (Bytes × Json F)) (cur : Nat) (ind : Bytes) :
    Agree h' o.ascii (· ∈ stringsM ms) (spillM fl o cur ind ms) (dumpM fl o cur ind ms)
      (dumpM fl { o with handler := h' } cur ind ms) := by
  match ms with
  | [] => rw [spillM, dumpM, dumpM]; exact agree_pure ind
  | (k, v) :: ms =>
    have hk := agree_string (h' := h') ho (T := (· ∈ stringsM ((k, v) :: ms))) (s := k) (by simp [stringsM])
    have hv := (agree_value ho v cur ind).mono (T' := (· ∈ stringsM ((k, v) :: ms)))
      (fun s hs => by rw [stringsM]; exact List.mem_cons_of_mem _ (List.mem_append.2 (.inl hs)))
    have hl := fun ind' => (agree_members ho ms cur ind').mono (T' := (· ∈ stringsM ((k, v) :: ms)))
      (fun s hs => by rw [stringsM]; exact List.mem_cons_of_mem _ (List.mem_append.2 (.inr hs)))
    have hq : (if o.pretty = true then [0x22, 0x3A, 0x20] else [0x22, 0x3A] : Bytes) =
        [0x22] ++ (if o.pretty = true then [0x3A, 0x20] else [0x3A]) := by cases o.pretty <;> rfl
    rw [spillM, dumpM, dumpM, hq]
    by_cases he : ms.isEmpty = true
    · simp only [he, if_true]
      have := (agree_indent o h' _ cur ind).then fun _ => hk.then fun _ =>
        (agree_put (if o.pretty = true then [0x3A, 0x20] else [0x3A])).then fun _ => hv.then fun ind' => agree_pure ind'
      refine this.congr ?_ ?_ ?_
      · simp only [Wr.bind_assoc, put_bind]
      · cases (if o.pretty = true then writeIndent ind cur else .ok []) with
        | ok c =>
          cases dumpString o k with
          | ok q => cases dumpV fl o cur ind v <;> simp [thenText, textOf, Outcome.bind]
          | _ => rfl
        | _ => rfl
      · cases (if o.pretty = true then writeIndent ind cur else .ok []) with
        | ok c =>
          cases dumpString { o with handler := h' } k with
          | ok q => cases dumpV fl { o with handler := h' } cur ind v <;> simp [thenText, textOf, Outcome.bind]
          | _ => rfl
        | _ => rfl
    · simp only [he, Bool.false_eq_true, if_false]
      have := (agree_indent o h' _ cur ind).then fun _ => hk.then fun _ =>
        (agree_put (if o.pretty = true then [0x3A, 0x20] else [0x3A])).then fun _ => hv.then fun ind' =>
        (agree_put (if o.pretty = true then [0x2C, 0x0A] else [0x2C])).then fun _ => hl ind'
      refine this.congr ?_ ?_ ?_
      · simp only [Wr.bind_assoc, put_bind]
      · cases (if o.pretty = true then writeIndent ind cur else .ok []) with
        | ok c =>
          cases dumpString o k with
          | ok q =>
            cases dumpV fl o cur ind v with
            | ok p => cases hd : dumpM fl o cur p.2 ms <;> simp [thenText, textOf, Outcome.bind, hd]
            | _ => rfl
          | _ => rfl
        | _ => rfl
      · cases (if o.pretty = true then writeIndent ind cur else .ok []) with
        | ok c =>
          cases dumpString { o with handler := h' } k with
          | ok q =>
            cases dumpV fl { o with handler := h' } cur ind v with
            | ok p => cases hd : dumpM fl { o with handler := h' } cur p.2 ms <;> simp [thenText, textOf, Outcome.bind, hd]
            | _ => rfl
          | _ => rfl
        | _ => rfl
end
end

end Verif.Json
