import Verif.Json.PropsSax

/-!
# Lemmas about the builder with a callback

What a callback makes of a value is said by recursion over the value (`visit`); the builder, with its
stacks and pointers, arrives at the same.
-/

namespace Verif.Json
open Spec

/-! ## What a callback makes of a value -/

mutual
/-- a value without anything discarded in it -/
def lift : Json F → Part F
  | .null => .null
  | .bool b => .bool b
  | .int i => .int i
  | .uint n => .uint n
  | .float x => .float (some x)
  | .str s => .str s
  | .arr xs => .arr (liftL xs)
  | .obj ms => .obj (liftM ms)
def liftL : List (Json F) → List (Part F)
  | [] => []
  | v :: vs => lift v :: liftL vs
def liftM : List (Bytes × Json F) → List (Bytes × Part F)
  | [] => []
  | (k, v) :: ms => (k, lift v) :: liftM ms
end

def isObj : Json F → Bool
  | .obj _ => true
  | _ => false

/-- what has become of a value: it has not been taken in; it stands there; it stood there, and has been
discarded at its end -/
inductive Fate (F : Type) where
  | lost
  | kept (w : Part F)
  | gone

/-- what comes into an array for the element `v`: one discarded at its end is taken away again if it is an
array, and is left as a discarded value if it is an object -/
def added (v : Json F) : Fate F → List (Part F)
  | .lost => []
  | .kept w => [w]
  | .gone => if isObj v then [discarded] else []

/-- what comes into an object for the member `k` -/
def member (k : Bytes) (acc : List (Bytes × Part F)) : Fate F → List (Bytes × Part F)
  | .lost => acc
  | .kept w => setKey k w acc
  | .gone => setKey k discarded acc

mutual
/-- what a callback makes of a value at the depth `d`.  `on`: the value is in an array or object whose start the
callback has accepted; `live`: there is a place for it. -/
def visit (cb : Callback F σ) (on live : Bool) (d : Nat) : Json F → σ → Fate F × σ
  | .arr xs, st =>
    let r := cb d .arrayStart discarded st
    let c := visitL cb r.1 (r.1 && live) (d + 1) xs [] r.2.2
    if r.1 && live then
      let e := cb d .arrayEnd (.arr c.1) c.2
      (if e.1 then .kept e.2.1 else .gone, e.2.2)
    else (.lost, c.2)
  | .obj ms, st =>
    let r := cb d .objectStart discarded st
    let c := visitM cb r.1 (r.1 && live) (d + 1) ms [] r.2.2
    if r.1 && live then
      let e := cb d .objectEnd (.obj c.1) c.2
      (if e.1 then .kept e.2.1 else .gone, e.2.2)
    else (.lost, c.2)
  | .null, st => visitOne cb on live d .null st
  | .bool b, st => visitOne cb on live d (.bool b) st
  | .int i, st => visitOne cb on live d (.int i) st
  | .uint n, st => visitOne cb on live d (.uint n) st
  | .float x, st => visitOne cb on live d (.float (some x)) st
  | .str s, st => visitOne cb on live d (.str s) st
/-- the elements of an array -/
def visitL (cb : Callback F σ) (on live : Bool) (d : Nat) :
    List (Json F) → List (Part F) → σ → List (Part F) × σ
  | [], acc, st => (acc, st)
  | v :: vs, acc, st =>
    let r := visit cb on live d v st
    visitL cb on live d vs (acc ++ added v r.1) r.2
/-- the members of an object: a key that is accepted makes a discarded value at once; the end of an object
within an object removes the first discarded value from the latter -/
def visitM (cb : Callback F σ) (on live : Bool) (d : Nat) :
    List (Bytes × Json F) → List (Bytes × Part F) → σ → List (Bytes × Part F) × σ
  | [], acc, st => (acc, st)
  | (k, v) :: ms, acc, st =>
    let q := cb d .key (.str k) st
    let acc1 := if q.1 && live then setKey k discarded acc else acc
    let r := visit cb on (q.1 && live) d v q.2.2
    let acc2 := member k acc1 r.1
    visitM cb on live d ms (if isObj v then dropFirst acc2 else acc2) r.2
/-- a value that is neither array nor object -/
def visitOne (cb : Callback F σ) (on live : Bool) (d : Nat) (w : Part F) (st : σ) : Fate F × σ :=
  if on then
    let r := cb d .value w st
    (if r.1 && live then .kept r.2.1 else .lost, r.2.2)
  else (.lost, st)
end

theorem visit_dead (cb : Callback F σ) (on : Bool) (d : Nat) (v : Json F) (st : σ) :
    (visit cb on false d v st).1 = .lost := by
  cases v <;> rw [visit] <;> simp only [visitOne, Bool.and_false, Bool.false_eq_true, if_false] <;> split <;> rfl

/-! ## The builder -/

/-- the calls of the parser to the builder, in order -/
def feed (cb : Callback F σ) : List (Event F) → Sieve F σ → Outcome (Sieve F σ)
  | [], d => .ok d
  | e :: es, d => d.on cb e >>= feed cb es

theorem feed_cons {cb : Callback F σ} {d d' : Sieve F σ} {e : Event F} (es : List (Event F))
    (h : d.on cb e = .ok d') : feed cb (e :: es) d = feed cb es d' := by rw [feed, h]; rfl

/-- where the next value goes: `root0` is the root without it, `G w` with it, `GO w` and `RO` the same after the end of an
object, `GA` after an array that has been discarded at its end -/
structure Spot (root0 : Part F) (refs : List (Option Path)) (kks : List Bool) (el : Option Path) (live : Bool)
    (q : Path) (G GO : Part F → Part F) (RO GA : Part F) : Prop where
  hole : live = true → Hole q G
  place : ∀ v, ∃ kk, place root0 refs kks el v =
    .ok (if live then some q else none, if live then G v else root0, kk)
  sweepG : live = true → ∀ w, sweep refs (G w) = .ok (GO w)
  sweepR : sweep refs root0 = .ok RO
  unpush : live = true → unpush refs (G discarded) = .ok GA

/-- the root after a value -/
def settle (v : Json F) (root0 : Part F) (G GO : Part F → Part F) (RO GA : Part F) : Fate F → Part F
  | .lost => if isObj v then RO else root0
  | .kept w => if isObj v then GO w else G w
  | .gone => if isObj v then GO discarded else GA

theorem Spot.root (st0 : Part F) : Spot st0 [] [] none true [] (fun w => w) (fun w => w) st0 discarded where
  hole _ := Hole.root
  place _ := ⟨[], rfl⟩
  sweepG _ _ := rfl
  sweepR := rfl
  unpush _ := rfl

/-- within an array or an object that is not kept -/
theorem Spot.dead (root0 : Part F) (rs : List (Option Path)) (kks : List Bool) (el : Option Path) :
    Spot root0 (none :: rs) kks el false [] (fun w => w) (fun w => w) root0 discarded where
  hole h := by cases h
  place _ := ⟨kks, rfl⟩
  sweepG h := by cases h
  sweepR := rfl
  unpush h := by cases h

theorem Spot.idx {p : Path} {K : Part F → Part F} (h : Hole p K) (xs : List (Part F)) (rs : List (Option Path))
    (kks : List Bool) (el : Option Path) :
    Spot (K (.arr xs)) (some p :: rs) kks el true (p ++ [.idx xs.length]) (fun w => K (.arr (xs ++ [w])))
      (fun w => K (.arr (xs ++ [w]))) (K (.arr xs)) (K (.arr xs)) where
  hole _ := h.idx xs
  place v := ⟨kks, by simp only [Verif.Json.place, (h _).1, (h _).2, if_true]⟩
  sweepG _ w := by simp only [sweep, (h _).1]
  sweepR := by simp only [sweep, (h _).1]
  unpush _ := by
    simp only [Verif.Json.unpush, (h _).1, (h _).2, List.dropLast_concat]
    rw [if_neg (by simp)]

theorem Spot.key {p : Path} {K : Part F → Part F} (h : Hole p K) (k : Bytes) (ms : List (Bytes × Part F))
    (rs : List (Option Path)) (kks : List Bool) :
    Spot (K (.obj (setKey k discarded ms))) (some p :: rs) (true :: kks) (some (p ++ [.key k])) true (p ++ [.key k])
      (fun w => K (.obj (setKey k w ms))) (fun w => K (.obj (dropFirst (setKey k w ms))))
      (K (.obj (dropFirst (setKey k discarded ms)))) (K (.obj (setKey k discarded ms))) where
  hole _ := h.key k ms
  place v := ⟨kks, by simp only [Verif.Json.place, (h _).1, ((h.key k ms) _).2, if_true]⟩
  sweepG _ w := by simp only [sweep, (h _).1, (h _).2]
  sweepR := by simp only [sweep, (h _).1, (h _).2]
  unpush _ := by simp only [Verif.Json.unpush, (h _).1]

/-- after a key that is not kept -/
theorem Spot.skip {p : Path} {K : Part F → Part F} (h : Hole p K) (ms : List (Bytes × Part F))
    (rs : List (Option Path)) (kks : List Bool) (el : Option Path) :
    Spot (K (.obj ms)) (some p :: rs) (false :: kks) el false []
      (fun w => w) (fun w => w) (K (.obj (dropFirst ms))) discarded where
  hole h := by cases h
  place v := ⟨kks, by simp only [Verif.Json.place, (h _).1, Bool.false_eq_true, if_false]⟩
  sweepG h := by cases h
  sweepR := by simp only [sweep, (h _).1, (h _).2]
  unpush h := by cases h

/-- a value that is neither array nor object -/
theorem value_visit (cb : Callback F σ) (on live : Bool) (w : Part F) (v : Json F) (hv : isObj v = false) {root0 : Part F}
    {refs : List (Option Path)} {kks : List Bool} {el : Option Path} {q : Path} {G GO : Part F → Part F} {RO GA : Part F}
    (h : Spot root0 refs kks el live q G GO RO GA) (ks : List Bool) (st : σ) :
    ∃ kk, (⟨root0, refs, on :: ks, kks, el, st⟩ : Sieve F σ).value cb w =
      .ok ⟨settle v root0 G GO RO GA (visitOne cb on live refs.length w st).1, refs, on :: ks, kk, el,
        (visitOne cb on live refs.length w st).2⟩ := by
  cases on
  · exact ⟨kks, by simp [Sieve.value, visitOne, settle, hv]⟩
  · obtain ⟨kk, hp⟩ := h.place (cb refs.length .value w st).2.1
    simp only [Sieve.value, visitOne, if_true]
    cases hc : (cb refs.length .value w st).1
    · exact ⟨kks, by simp [settle, hv]⟩
    · refine ⟨kk, ?_⟩
      simp only [hp, if_true, Bool.true_and, Outcome.bind_ok, Outcome.pure_eq]
      cases live <;> simp [settle, hv]

mutual
/-- the calls for a value, to the builder with a callback -/
theorem feed_value (cb : Callback F σ) (v : Json F) (on live : Bool) {root0 : Part F}
    {refs : List (Option Path)} {kks : List Bool} {el : Option Path} {q : Path} {G GO : Part F → Part F} {RO GA : Part F}
    (h : Spot root0 refs kks el live q G GO RO GA) (ks : List Bool) (st : σ) :
    ∃ kk el', ∀ es, feed cb (events v ++ es) ⟨root0, refs, on :: ks, kks, el, st⟩ =
      feed cb es ⟨settle v root0 G GO RO GA (visit cb on live refs.length v st).1, refs, on :: ks, kk, el',
        (visit cb on live refs.length v st).2⟩ := by
  match v with
  | .null =>
    obtain ⟨kk, hv⟩ := value_visit cb on live .null .null rfl h ks st
    exact ⟨kk, el, fun es => feed_cons es (by rw [visit]; exact hv)⟩
  | .bool b =>
    obtain ⟨kk, hv⟩ := value_visit cb on live (.bool b) (.bool b) rfl h ks st
    exact ⟨kk, el, fun es => feed_cons es (by rw [visit]; exact hv)⟩
  | .int i =>
    obtain ⟨kk, hv⟩ := value_visit cb on live (.int i) (.int i) rfl h ks st
    exact ⟨kk, el, fun es => feed_cons es (by rw [visit]; exact hv)⟩
  | .uint n =>
    obtain ⟨kk, hv⟩ := value_visit cb on live (.uint n) (.uint n) rfl h ks st
    exact ⟨kk, el, fun es => feed_cons es (by rw [visit]; exact hv)⟩
  | .float x =>
    obtain ⟨kk, hv⟩ := value_visit cb on live (.float (some x)) (.float x) rfl h ks st
    exact ⟨kk, el, fun es => feed_cons es (by rw [visit]; exact hv)⟩
  | .str s =>
    obtain ⟨kk, hv⟩ := value_visit cb on live (.str s) (.str s) rfl h ks st
    exact ⟨kk, el, fun es => feed_cons es (by rw [visit]; exact hv)⟩
  | .arr xs =>
    rw [visit, events]
    generalize hr : cb refs.length .arrayStart discarded st = r
    obtain ⟨b, w, st1⟩ := r
    obtain ⟨kk, hp⟩ := h.place (.arr [])
    cases b
    · obtain ⟨kk2, el2, h2⟩ := feed_L0 cb xs false root0 refs (on :: ks) kks el st1 []
      refine ⟨kk2, el2, fun es => ?_⟩
      rw [List.cons_append, feed_cons _ (d' := ⟨root0, none :: refs, false :: on :: ks, kks, el, st1⟩)
        (by simp only [Sieve.on, Sieve.start, hr, Bool.false_eq_true, if_false]), List.append_assoc, h2]
      exact feed_cons es rfl
    · cases live
      · obtain ⟨kk2, el2, h2⟩ := feed_L0 cb xs true root0 refs (on :: ks) kk el st1 []
        refine ⟨kk2, el2, fun es => ?_⟩
        rw [List.cons_append, feed_cons _ (d' := ⟨root0, none :: refs, true :: on :: ks, kk, el, st1⟩)
          (by simp only [Sieve.on, Sieve.start, hr, hp, if_true, Outcome.bind_ok, Bool.false_eq_true, if_false, Outcome.pure_eq]), List.append_assoc, h2]
        exact feed_cons es rfl
      · have hh := h.hole rfl
        obtain ⟨kk2, el2, h2⟩ := feed_L cb xs true hh refs (on :: ks) kk el st1 []
        refine ⟨kk2, el2, fun es => ?_⟩
        rw [List.cons_append, feed_cons _ (d' := ⟨G (.arr []), some q :: refs, true :: on :: ks, kk, el, st1⟩)
          (by simp only [Sieve.on, Sieve.start, hr, hp, if_true, Outcome.bind_ok, Outcome.pure_eq]), List.append_assoc, h2]
        refine feed_cons es ?_
        simp only [Sieve.on, Sieve.finish, (hh _).1, (hh _).2, Outcome.bind_ok, List.tail_cons, Bool.and_true, if_true]
        generalize visitL cb true true (refs.length + 1) xs [] st1 = c
        cases he : (cb refs.length .arrayEnd (.arr c.1) c.2).1
        · simp only [Bool.false_eq_true, if_false, h.unpush rfl, Outcome.bind_ok, Outcome.pure_eq, settle, isObj]
        · simp only [if_true, Outcome.bind_ok, Outcome.pure_eq, settle, isObj, Bool.false_eq_true, if_false]
  | .obj ms =>
    rw [visit, events]
    generalize hr : cb refs.length .objectStart discarded st = r
    obtain ⟨b, w, st1⟩ := r
    obtain ⟨kk, hp⟩ := h.place (.obj [])
    cases b
    · obtain ⟨kk2, el2, h2⟩ := feed_M0 cb ms false root0 refs (on :: ks) kks el st1 []
      refine ⟨kk2, el2, fun es => ?_⟩
      rw [List.cons_append, feed_cons _ (d' := ⟨root0, none :: refs, false :: on :: ks, kks, el, st1⟩)
        (by simp only [Sieve.on, Sieve.start, hr, Bool.false_eq_true, if_false]), List.append_assoc, h2]
      refine feed_cons es ?_
      simp only [Sieve.on, Sieve.finish, Outcome.bind_ok, List.tail_cons, h.sweepR, Outcome.pure_eq, settle, isObj,
        Bool.false_and, Bool.false_eq_true, if_false, if_true]
    · cases live
      · obtain ⟨kk2, el2, h2⟩ := feed_M0 cb ms true root0 refs (on :: ks) kk el st1 []
        refine ⟨kk2, el2, fun es => ?_⟩
        rw [List.cons_append, feed_cons _ (d' := ⟨root0, none :: refs, true :: on :: ks, kk, el, st1⟩)
          (by simp only [Sieve.on, Sieve.start, hr, hp, if_true, Outcome.bind_ok, Bool.false_eq_true, if_false, Outcome.pure_eq]), List.append_assoc, h2]
        refine feed_cons es ?_
        simp only [Sieve.on, Sieve.finish, Outcome.bind_ok, List.tail_cons, h.sweepR, Outcome.pure_eq, settle, isObj,
          Bool.and_false, Bool.false_eq_true, if_false, if_true]
      · have hh := h.hole rfl
        obtain ⟨kk2, el2, h2⟩ := feed_M cb ms true hh refs (on :: ks) kk el st1 []
        refine ⟨kk2, el2, fun es => ?_⟩
        rw [List.cons_append, feed_cons _ (d' := ⟨G (.obj []), some q :: refs, true :: on :: ks, kk, el, st1⟩)
          (by simp only [Sieve.on, Sieve.start, hr, hp, if_true, Outcome.bind_ok, Outcome.pure_eq]), List.append_assoc, h2]
        refine feed_cons es ?_
        simp only [Sieve.on, Sieve.finish, (hh _).1, (hh _).2, Outcome.bind_ok, List.tail_cons, Bool.and_true, if_true,
          h.sweepG rfl, Outcome.pure_eq]
        generalize visitM cb true true (refs.length + 1) ms [] st1 = c
        cases he : (cb refs.length .objectEnd (.obj c.1) c.2).1
        · simp only [Bool.false_eq_true, if_false, settle, isObj, if_true]
        · simp only [if_true, settle, isObj]
/-- the elements of an array that is kept -/
theorem feed_L (cb : Callback F σ) (vs : List (Json F)) (on : Bool) {p : Path} {K : Part F → Part F} (h : Hole p K)
    (rs : List (Option Path)) (ks kks : List Bool) (el : Option Path) (st : σ) (acc : List (Part F)) :
    ∃ kk el', ∀ es, feed cb (eventsL vs ++ es) ⟨K (.arr acc), some p :: rs, on :: ks, kks, el, st⟩ =
      feed cb es ⟨K (.arr (visitL cb on true (rs.length + 1) vs acc st).1), some p :: rs, on :: ks, kk, el',
        (visitL cb on true (rs.length + 1) vs acc st).2⟩ := by
  match vs with
  | [] => exact ⟨kks, el, fun es => by rw [eventsL, visitL]; rfl⟩
  | v :: vs =>
    obtain ⟨kk1, el1, h1⟩ := feed_value cb v on true (Spot.idx h acc rs kks el) ks st
    rw [List.length_cons] at h1
    have hs : settle v (K (.arr acc)) (fun w => K (.arr (acc ++ [w]))) (fun w => K (.arr (acc ++ [w]))) (K (.arr acc)) (K (.arr acc))
        (visit cb on true (rs.length + 1) v st).1 = K (.arr (acc ++ added v (visit cb on true (rs.length + 1) v st).1)) := by
      cases (visit cb on true (rs.length + 1) v st).1 <;> cases hv : isObj v <;> simp [settle, added, hv]
    rw [hs] at h1
    obtain ⟨kk2, el2, h2⟩ := feed_L cb vs on h rs ks kk1 el1 (visit cb on true (rs.length + 1) v st).2
      (acc ++ added v (visit cb on true (rs.length + 1) v st).1)
    refine ⟨kk2, el2, fun es => ?_⟩
    rw [eventsL, List.append_assoc, h1, h2, visitL]
/-- the elements of an array that is not kept -/
theorem feed_L0 (cb : Callback F σ) (vs : List (Json F)) (on : Bool) (root0 : Part F)
    (rs : List (Option Path)) (ks kks : List Bool) (el : Option Path) (st : σ) (acc : List (Part F)) :
    ∃ kk el', ∀ es, feed cb (eventsL vs ++ es) ⟨root0, none :: rs, on :: ks, kks, el, st⟩ =
      feed cb es ⟨root0, none :: rs, on :: ks, kk, el', (visitL cb on false (rs.length + 1) vs acc st).2⟩ := by
  match vs with
  | [] => exact ⟨kks, el, fun es => by rw [eventsL, visitL]; rfl⟩
  | v :: vs =>
    obtain ⟨kk1, el1, h1⟩ := feed_value cb v on false (Spot.dead root0 rs kks el) ks st
    rw [List.length_cons] at h1
    rw [visit_dead] at h1
    simp only [settle, ite_self] at h1
    obtain ⟨kk2, el2, h2⟩ := feed_L0 cb vs on root0 rs ks kk1 el1 (visit cb on false (rs.length + 1) v st).2
      (acc ++ added v (visit cb on false (rs.length + 1) v st).1)
    refine ⟨kk2, el2, fun es => ?_⟩
    rw [eventsL, List.append_assoc, h1, h2, visitL]
/-- the members of an object that is kept -/
theorem feed_M (cb : Callback F σ) (ms : List (Bytes × Json F)) (on : Bool) {p : Path} {K : Part F → Part F} (h : Hole p K)
    (rs : List (Option Path)) (ks kks : List Bool) (el : Option Path) (st : σ) (acc : List (Bytes × Part F)) :
    ∃ kk el', ∀ es, feed cb (eventsM ms ++ es) ⟨K (.obj acc), some p :: rs, on :: ks, kks, el, st⟩ =
      feed cb es ⟨K (.obj (visitM cb on true (rs.length + 1) ms acc st).1), some p :: rs, on :: ks, kk, el',
        (visitM cb on true (rs.length + 1) ms acc st).2⟩ := by
  match ms with
  | [] => exact ⟨kks, el, fun es => by rw [eventsM, visitM]; rfl⟩
  | (k, v) :: ms =>
    rw [eventsM, visitM]
    generalize hq : cb (rs.length + 1) .key (.str k) st = r
    obtain ⟨b, w, st1⟩ := r
    cases b
    · obtain ⟨kk1, el1, h1⟩ := feed_value cb v on false (Spot.skip h acc rs kks el) ks st1
      rw [List.length_cons] at h1
      rw [visit_dead] at h1
      simp only [settle] at h1
      simp only [Bool.false_and, Bool.false_eq_true, if_false]
      rw [visit_dead]
      simp only [member]
      have he : (if isObj v = true then K (.obj (dropFirst acc)) else K (.obj acc)) =
          K (.obj (if isObj v = true then dropFirst acc else acc)) := by split <;> rfl
      rw [he] at h1
      obtain ⟨kk2, el2, h2⟩ := feed_M cb ms on h rs ks kk1 el1 (visit cb on false (rs.length + 1) v st1).2
        (if isObj v = true then dropFirst acc else acc)
      refine ⟨kk2, el2, fun es => ?_⟩
      rw [List.cons_append, feed_cons _ (d' := ⟨K (.obj acc), some p :: rs, on :: ks, false :: kks, el, st1⟩)
        (by simp only [Sieve.on, List.length_cons, hq, Bool.false_eq_true, if_false]), List.append_assoc, h1, h2]
    · obtain ⟨kk1, el1, h1⟩ := feed_value cb v on true (Spot.key h k acc rs kks) ks st1
      rw [List.length_cons] at h1
      simp only [Bool.true_and, if_true]
      generalize visit cb on true (rs.length + 1) v st1 = f at h1 ⊢
      have he : settle v (K (.obj (setKey k discarded acc))) (fun w => K (.obj (setKey k w acc)))
          (fun w => K (.obj (dropFirst (setKey k w acc)))) (K (.obj (dropFirst (setKey k discarded acc))))
          (K (.obj (setKey k discarded acc))) f.1 =
          K (.obj (if isObj v = true then dropFirst (member k (setKey k discarded acc) f.1) else
            member k (setKey k discarded acc) f.1)) := by
        cases f.1 <;> cases hv : isObj v <;> simp [settle, member, setKey_setKey, hv]
      rw [he] at h1
      obtain ⟨kk2, el2, h2⟩ := feed_M cb ms on h rs ks kk1 el1 f.2
        (if isObj v = true then dropFirst (member k (setKey k discarded acc) f.1) else
            member k (setKey k discarded acc) f.1)
      refine ⟨kk2, el2, fun es => ?_⟩
      rw [List.cons_append, feed_cons _ (d' := ⟨K (.obj (setKey k discarded acc)), some p :: rs, on :: ks, true :: kks,
          some (p ++ [.key k]), st1⟩)
        (by simp only [Sieve.on, List.length_cons, hq, if_true, (h _).1, (h _).2]), List.append_assoc, h1, h2]
/-- the members of an object that is not kept -/
theorem feed_M0 (cb : Callback F σ) (ms : List (Bytes × Json F)) (on : Bool) (root0 : Part F)
    (rs : List (Option Path)) (ks kks : List Bool) (el : Option Path) (st : σ) (acc : List (Bytes × Part F)) :
    ∃ kk el', ∀ es, feed cb (eventsM ms ++ es) ⟨root0, none :: rs, on :: ks, kks, el, st⟩ =
      feed cb es ⟨root0, none :: rs, on :: ks, kk, el', (visitM cb on false (rs.length + 1) ms acc st).2⟩ := by
  match ms with
  | [] => exact ⟨kks, el, fun es => by rw [eventsM, visitM]; rfl⟩
  | (k, v) :: ms =>
    rw [eventsM, visitM]
    generalize hq : cb (rs.length + 1) .key (.str k) st = r
    obtain ⟨b, w, st1⟩ := r
    obtain ⟨kk1, el1, h1⟩ := feed_value cb v on false (Spot.dead root0 rs (b :: kks) el) ks st1
    rw [List.length_cons] at h1
    rw [visit_dead] at h1
    simp only [settle, ite_self] at h1
    simp only [Bool.and_false, Bool.false_eq_true, if_false]
    obtain ⟨kk2, el2, h2⟩ := feed_M0 cb ms on root0 rs ks kk1 el1 (visit cb on false (rs.length + 1) v st1).2
      (if isObj v = true then dropFirst (member k acc (visit cb on false (rs.length + 1) v st1).1) else
        member k acc (visit cb on false (rs.length + 1) v st1).1)
    refine ⟨kk2, el2, fun es => ?_⟩
    rw [List.cons_append, feed_cons _ (d' := ⟨root0, none :: rs, on :: ks, b :: kks, el, st1⟩)
        (by simp only [Sieve.on, List.length_cons, hq]), List.append_assoc, h1, h2]
end

end Verif.Json
