import Verif.Json.SieveLemmas
import Verif.Json.MapLemmas

/-!
# Reading JSON with a callback: the properties
-/

namespace Verif.Json
open Spec

/-! ## Any callback -/

/-- what is returned: nothing, or a discarded value, is null -/
def Fate.top : Fate F → Part F
  | .lost => .null
  | .kept w => if isDiscarded w then .null else w
  | .gone => .null

theorem deliver_sieve (cb : Callback F σ) (ex : Bool) : ∀ (es : List (Event F)) (d d' : Sieve F σ),
    feed cb es d = .ok d' → deliver (sieve cb ex) es (d, false) = .ok (true, (d', false))
  | [], d, d', h => by cases h; rfl
  | e :: es, d, d', h => by
    rw [feed] at h
    rw [deliver]
    simp only [sieve]
    cases he : d.on cb e with
    | ok d1 =>
      rw [he] at h
      simp only [Outcome.bind_ok, Outcome.pure_eq, if_true]
      exact deliver_sieve cb ex es d1 d' h
    | _ => rw [he] at h; cases h

theorem feed_left (cb : Callback F σ) : ∀ (es es' : List (Event F)) (d d' : Sieve F σ), feed cb (es ++ es') d = .ok d' →
    ∃ d1, feed cb es d = .ok d1
  | [], _, d, _, _ => ⟨d, rfl⟩
  | e :: es, es', d, d', h => by
    rw [List.cons_append, feed] at h
    rw [feed]
    cases he : d.on cb e with
    | ok d1 => rw [he] at h; exact feed_left cb es es' d1 d' h
    | _ => rw [he] at h; cases h

theorem feed_root (cb : Callback F σ) (raw : Json F) (st : σ) :
    ∃ kk el, feed cb (events raw) (⟨.null, [], [true], [], none, st⟩ : Sieve F σ) =
      .ok ⟨settle raw .null (fun w => w) (fun w => w) .null discarded (visit cb true true 0 raw st).1, [], [true], kk, el,
        (visit cb true true 0 raw st).2⟩ := by
  obtain ⟨kk, el, h⟩ := feed_value cb raw true true (Spot.root .null) [] st
  have := h []
  rw [List.append_nil] at this
  exact ⟨kk, el, this⟩

/-- **C150** With any callback, whatever it answers, keeps in mind and changes, a JSON text is read as what `visit` says: the
callback is asked at the start of every array and object, at every key and, within what it has
accepted, at every other value and at the ends; its answers have the effects said there. -/
theorem C150_visits (fl : Floats F) (cb : Callback F σ) (ex : Bool) (s : Bytes) (st : σ) (raw : Json F) (h : IsText fl s raw) :
    parseCb fl cb ex s st = .ok ((visit cb true true 0 raw st).1.top, (visit cb true true 0 raw st).2) := by
  obtain ⟨kk, el, hf⟩ := feed_root cb raw st
  rw [parseCb, C149_events fl s raw h, deliver_sieve cb ex _ _ _ hf]
  simp only [Outcome.bind_ok, Outcome.pure_eq, Bool.false_eq_true, if_false, Outcome.ok.injEq, Prod.mk.injEq, and_true]
  cases (visit cb true true 0 raw st).1 with
  | lost => simp [settle, Fate.top, isDiscarded]
  | kept w => simp [settle, Fate.top]
  | gone => simp [settle, Fate.top, isDiscarded, discarded]

/-- a callback without a state that changes nothing -/
def asks (p : Nat → Occasion → Part F → Bool) : Callback F Unit := fun d o v _ => (p d o v, v, ())

/-- `[1,true,[2]]` without numbers below the first depth, written `[true,[]]`; a callback that doubles numbers and counts its calls -/
example (fl : Floats F) :
    parseCb fl (asks fun _ _ v => match v with | .uint _ => false | _ => true) true
        [0x5B, 0x31, 0x2C, 0x74, 0x72, 0x75, 0x65, 0x2C, 0x5B, 0x32, 0x5D, 0x5D] () =
      .ok (.arr [.bool true, .arr []], ()) ∧
    parseCb fl (fun _ _ v n => (true, match v with | .uint m => .uint (2 * m) | v => v, n + 1)) true
        [0x5B, 0x31, 0x2C, 0x32, 0x5D] 0 = .ok (.arr [.uint 2, .uint 4], 4) := ⟨by rfl, by rfl⟩

/-- **C150** With any callback, a text that is no JSON text is refused with the exception that `parse` throws or, without exceptions,
is read as a discarded value; behaviour is defined, and no assertion fails. -/
theorem C150_refuses (fl : Floats F) (cb : Callback F σ) (s : Bytes) (st : σ) (h : ¬ ∃ raw, IsText fl s raw) :
    (∃ k, parseAll fl s = .throws k ∧ parseCb fl cb true s st = .throws k) ∧
      ∃ st', parseCb fl cb false s st = .ok (discarded, st') := by
  obtain ⟨evs, e, ⟨w, more, hw⟩, hp, hH⟩ := C149_errors fl s h
  obtain ⟨kk, el, hf⟩ := feed_root cb w st
  rw [← hw] at hf
  obtain ⟨d1, h1⟩ := feed_left cb _ _ _ _ hf
  refine ⟨⟨_, hp, ?_⟩, d1.st, ?_⟩
  · rw [parseCb, hH, deliver_sieve cb true _ _ _ h1]; rfl
  · rw [parseCb, hH, deliver_sieve cb false _ _ _ h1]; rfl

/-- `{"a":1]`, with a callback that rejects everything -/
example (fl : Floats F) :
    (¬ ∃ raw, IsText fl [0x7B, 0x22, 0x61, 0x22, 0x3A, 0x31, 0x5D] raw) ∧
      parseCb fl (asks fun _ _ _ => false) true [0x7B, 0x22, 0x61, 0x22, 0x3A, 0x31, 0x5D] () = .throws "parse_error.101" ∧
      parseCb fl (asks fun _ _ _ => false) false [0x7B, 0x22, 0x61, 0x22, 0x3A, 0x31, 0x5D] () = .ok (discarded, ()) := by
  refine ⟨?_, by rfl, by rfl⟩
  rintro ⟨raw, hr⟩
  have h1 := (parseAll_text fl).2 ⟨raw, hr, rfl⟩
  have h2 : parseAll fl [0x7B, 0x22, 0x61, 0x22, 0x3A, 0x31, 0x5D] = .throws "parse_error.101" := by rfl
  rw [h1] at h2
  cases h2

/-! ## A callback that keeps everything -/

theorem liftM_setKey (k : Bytes) (w : Json F) : ∀ ms : List (Bytes × Json F),
    setKey k (lift w) (liftM ms) = liftM (setKey k w ms)
  | [] => by simp [liftM, setKey]
  | (k', v) :: ms => by
    rw [liftM, setKey, setKey]
    by_cases h1 : keyLt k k' = true
    · rw [if_pos h1, if_pos h1, liftM, liftM]
    · rw [if_neg h1, if_neg h1]
      by_cases h2 : keyLt k' k = true
      · rw [if_pos h2, if_pos h2, liftM, liftM_setKey k w ms]
      · rw [if_neg h2, if_neg h2, liftM]

theorem isDiscarded_lift (v : Json F) : isDiscarded (lift v) = false := by cases v <;> rfl

theorem dropFirst_lift : ∀ ms : List (Bytes × Json F), dropFirst (liftM ms) = liftM ms
  | [] => rfl
  | (k, v) :: ms => by
    rw [liftM, dropFirst, if_neg (by rw [isDiscarded_lift]; simp), dropFirst_lift ms]

theorem liftL_append (xs : List (Json F)) (v : Json F) : liftL (xs ++ [v]) = liftL xs ++ [lift v] := by
  induction xs with
  | nil => rfl
  | cons x xs ih => rw [List.cons_append, liftL, liftL, ih]; rfl

mutual
/-- the calls of a callback that keeps everything -/
def calls (d : Nat) : Json F → List (Nat × Occasion × Part F)
  | .arr xs => (d, .arrayStart, discarded) :: (callsL (d + 1) xs ++ [(d, .arrayEnd, lift (tidy (.arr xs)))])
  | .obj ms => (d, .objectStart, discarded) :: (callsM (d + 1) ms ++ [(d, .objectEnd, lift (tidy (.obj ms)))])
  | .null => [(d, .value, .null)]
  | .bool b => [(d, .value, .bool b)]
  | .int i => [(d, .value, .int i)]
  | .uint n => [(d, .value, .uint n)]
  | .float x => [(d, .value, .float (some x))]
  | .str s => [(d, .value, .str s)]
def callsL (d : Nat) : List (Json F) → List (Nat × Occasion × Part F)
  | [] => []
  | v :: vs => calls d v ++ callsL d vs
def callsM (d : Nat) : List (Bytes × Json F) → List (Nat × Occasion × Part F)
  | [] => []
  | (k, v) :: ms => (d, .key, .str k) :: (calls d v ++ callsM d ms)
end

mutual
theorem visit_all {cb : Callback F σ} {f : σ → Nat × Occasion × Part F → σ}
    (h : ∀ d o v st, cb d o v st = (true, v, f st (d, o, v))) (d : Nat) :
    ∀ (v : Json F) (st : σ), visit cb true true d v st = (.kept (lift (tidy v)), (calls d v).foldl f st)
  | .null, st => by simp [visit, visitOne, h, tidy, lift, calls]
  | .bool b, st => by simp [visit, visitOne, h, tidy, lift, calls]
  | .int i, st => by simp [visit, visitOne, h, tidy, lift, calls]
  | .uint n, st => by simp [visit, visitOne, h, tidy, lift, calls]
  | .float x, st => by simp [visit, visitOne, h, tidy, lift, calls]
  | .str s, st => by simp [visit, visitOne, h, tidy, lift, calls]
  | .arr xs, st => by
    rw [visit]
    simp only [h, Bool.and_self, if_true]
    have := visitL_all h (d + 1) xs [] (f st (d, .arrayStart, discarded))
    rw [liftL] at this
    simp [this, calls, tidy, lift]
  | .obj ms, st => by
    rw [visit]
    simp only [h, Bool.and_self, if_true]
    have := visitM_all h (d + 1) ms [] (f st (d, .objectStart, discarded))
    rw [liftM] at this
    simp [this, calls, tidy, lift]
theorem visitL_all {cb : Callback F σ} {f : σ → Nat × Occasion × Part F → σ}
    (h : ∀ d o v st, cb d o v st = (true, v, f st (d, o, v))) (d : Nat) :
    ∀ (vs acc : List (Json F)) (st : σ), visitL cb true true d vs (liftL acc) st =
      (liftL (acc ++ tidyL vs), (callsL d vs).foldl f st)
  | [], acc, st => by simp [visitL, tidyL, callsL]
  | v :: vs, acc, st => by
    rw [visitL, visit_all h d v st]
    simp only [added]
    rw [← liftL_append, visitL_all h d vs, callsL, tidyL]
    simp
theorem visitM_all {cb : Callback F σ} {f : σ → Nat × Occasion × Part F → σ}
    (h : ∀ d o v st, cb d o v st = (true, v, f st (d, o, v))) (d : Nat) :
    ∀ (ms acc : List (Bytes × Json F)) (st : σ), visitM cb true true d ms (liftM acc) st =
      (liftM (tidyM acc ms), (callsM d ms).foldl f st)
  | [], acc, st => by simp [visitM, tidyM, callsM]
  | (k, v) :: ms, acc, st => by
    rw [visitM]
    simp only [h, Bool.and_self, if_true]
    rw [visit_all h d v]
    simp only [member, setKey_setKey]
    rw [liftM_setKey, dropFirst_lift, ite_self, visitM_all h d ms, callsM, tidyM]
    simp
end

/-- **C150** A callback that keeps everything gets the value that `parse` gives, and is told all of it: every value with its depth, every
key, and every array and object when it starts – with a discarded value – and, complete, when it ends. -/
theorem C150_all (fl : Floats F) (cb : Callback F σ) (f : σ → Nat × Occasion × Part F → σ)
    (h : ∀ d o v st, cb d o v st = (true, v, f st (d, o, v))) (ex : Bool) (s : Bytes) (st : σ) (raw : Json F)
    (hs : IsText fl s raw) :
    parseAll fl s = .ok (tidy raw) ∧ parseCb fl cb ex s st = .ok (lift (tidy raw), (calls 0 raw).foldl f st) := by
  refine ⟨(parseAll_text fl).2 ⟨raw, hs, rfl⟩, ?_⟩
  rw [C150_visits fl cb ex s st raw hs, visit_all h]
  simp only [Fate.top, isDiscarded_lift, Bool.false_eq_true, if_false]

/-- `{"a":[7]}`, with a callback that writes down what it is told -/
example (fl : Floats F) :
    parseCb fl (fun d o v st => (true, v, st ++ [(d, o, v)])) true [0x7B, 0x22, 0x61, 0x22, 0x3A, 0x5B, 0x37, 0x5D, 0x7D] [] =
      .ok (.obj [([0x61], .arr [.uint 7])],
        [(0, .objectStart, discarded), (1, .key, .str [0x61]), (1, .arrayStart, discarded), (2, .value, .uint 7),
          (1, .arrayEnd, .arr [.uint 7]), (0, .objectEnd, .obj [([0x61], .arr [.uint 7])])]) := by rfl

/-! ## A callback that rejects -/

mutual
/-- what is to be left of a value, json.hpp:15689-15693: what is rejected – at the start, at the end, by the key or as
a value – as if it were not there -/
def sift (p : Nat → Occasion → Part F → Bool) (d : Nat) : Json F → Option (Json F)
  | .arr xs =>
    if p d .arrayStart discarded then
      if p d .arrayEnd (lift (.arr (siftL p (d + 1) xs))) then some (.arr (siftL p (d + 1) xs)) else none
    else none
  | .obj ms =>
    if p d .objectStart discarded then
      if p d .objectEnd (lift (.obj (siftM p (d + 1) [] ms))) then some (.obj (siftM p (d + 1) [] ms)) else none
    else none
  | .null => if p d .value .null then some .null else none
  | .bool b => if p d .value (.bool b) then some (.bool b) else none
  | .int i => if p d .value (.int i) then some (.int i) else none
  | .uint n => if p d .value (.uint n) then some (.uint n) else none
  | .float x => if p d .value (.float (some x)) then some (.float x) else none
  | .str s => if p d .value (.str s) then some (.str s) else none
def siftL (p : Nat → Occasion → Part F → Bool) (d : Nat) : List (Json F) → List (Json F)
  | [] => []
  | v :: vs => (sift p d v).toList ++ siftL p d vs
def siftM (p : Nat → Occasion → Part F → Bool) (d : Nat) (acc : List (Bytes × Json F)) :
    List (Bytes × Json F) → List (Bytes × Json F)
  | [] => acc
  | (k, v) :: ms =>
    if p d .key (.str k) then
      match sift p d v with
      | some w => siftM p d (setKey k w acc) ms
      | none => siftM p d acc ms
    else siftM p d acc ms
end

mutual
/-- nothing is rejected in a way the reader does not carry out: no object at its end within an array, and,
within an object, nothing but objects after a key that is accepted; and no key occurs twice in an object -/
def Meek (p : Nat → Occasion → Part F → Bool) (d : Nat) : Json F → Prop
  | .arr xs => p d .arrayStart discarded = true → MeekL p (d + 1) xs
  | .obj ms => p d .objectStart discarded = true → (ms.map Prod.fst).Nodup ∧ MeekM p (d + 1) ms
  | _ => True
def MeekL (p : Nat → Occasion → Part F → Bool) (d : Nat) : List (Json F) → Prop
  | [] => True
  | v :: vs => Meek p d v ∧ (isObj v = true → p d .objectStart discarded = true → (sift p d v).isSome) ∧ MeekL p d vs
def MeekM (p : Nat → Occasion → Part F → Bool) (d : Nat) : List (Bytes × Json F) → Prop
  | [] => True
  | (k, v) :: ms =>
    (p d .key (.str k) = true → Meek p d v ∧ (isObj v = false → (sift p d v).isSome)) ∧ MeekM p d ms
end

theorem dropFirst_set {k : Bytes} : ∀ {ms : List (Bytes × Json F)}, k ∉ ms.map Prod.fst →
    dropFirst (setKey k discarded (liftM ms)) = liftM ms
  | [], _ => rfl
  | (l, w) :: ms, hs => by
    rw [List.map_cons, List.mem_cons, not_or] at hs
    rw [liftM, setKey_cons]
    by_cases hlt : k < l
    · rw [if_pos hlt, dropFirst, if_pos (by rfl)]
    · rw [if_neg hlt, if_neg hs.1, dropFirst, if_neg (by rw [isDiscarded_lift]; simp), dropFirst_set hs.2]

theorem keys_setKey {k l : Bytes} {w : Json F} : ∀ {ms : List (Bytes × Json F)}, l ∈ (setKey k w ms).map Prod.fst →
    l = k ∨ l ∈ ms.map Prod.fst
  | [], h => by simpa [setKey] using h
  | (l', w') :: ms, h => by
    rw [setKey_cons] at h
    split at h
    · simpa using h
    · split at h
      · rename_i e
        subst e
        simpa using h
      · rw [List.map_cons, List.mem_cons] at h
        rcases h with h | h
        · right; simp [h]
        · rcases keys_setKey h with h | h
          · exact .inl h
          · right; rw [List.map_cons]; exact List.mem_cons_of_mem _ h

/-- the fates that go with what `sift` says -/
def Suits (d : Nat) (p : Nat → Occasion → Part F → Bool) (v : Json F) (f : Fate F) : Prop :=
  match sift p d v with
  | some w => f = .kept (lift w)
  | none => f = .lost ∨ (f = .gone ∧ (isObj v = true → p d .objectStart discarded = true))

theorem suits_one {p : Nat → Occasion → Part F → Bool} {d : Nat} {v : Json F} {w : Part F}
    (hs : sift p d v = if p d .value w then some v else none) (hl : lift v = w) (st : Unit) :
    Suits d p v (visitOne (asks p) true true d w st).1 := by
  rw [Suits, hs]
  cases hp : p d .value w
  · simp [visitOne, asks, hp]
  · simp [visitOne, asks, hp, hl]

mutual
theorem visit_sift {p : Nat → Occasion → Part F → Bool} (d : Nat) : ∀ (v : Json F), Meek p d v → ∀ st,
    Suits d p v (visit (asks p) true true d v st).1
  | .null, _, st => by rw [visit]; exact suits_one (by rw [sift]; rfl) rfl st
  | .bool b, _, st => by rw [visit]; exact suits_one (by rw [sift]; rfl) rfl st
  | .int i, _, st => by rw [visit]; exact suits_one (by rw [sift]; rfl) rfl st
  | .uint n, _, st => by rw [visit]; exact suits_one (by rw [sift]; rfl) rfl st
  | .float x, _, st => by rw [visit]; exact suits_one (by rw [sift]; rfl) rfl st
  | .str s, _, st => by rw [visit]; exact suits_one (by rw [sift]; rfl) rfl st
  | .arr xs, hm, st => by
    rw [Meek] at hm
    rw [visit, Suits, sift]
    have hq : asks p d .arrayStart discarded st = (p d .arrayStart discarded, discarded, ()) := rfl
    simp only [hq]
    by_cases hp : p d .arrayStart discarded = true
    case neg => simp [hp]
    · have h := visitL_sift (d + 1) xs (hm hp) [] ()
      rw [liftL] at h
      simp only [hp, Bool.and_true, if_true, h, List.nil_append]
      cases he : p d .arrayEnd (lift (.arr (siftL p (d + 1) xs)))
      · rw [lift] at he
        simp [asks, he, isObj]
      · have he' := he
        rw [lift] at he'
        simp [asks, he', lift]
  | .obj ms, hm, st => by
    rw [Meek] at hm
    rw [visit, Suits, sift]
    have hq : asks p d .objectStart discarded st = (p d .objectStart discarded, discarded, ()) := rfl
    simp only [hq]
    by_cases hp : p d .objectStart discarded = true
    case neg => simp [hp]
    · have h := visitM_sift (d + 1) ms (hm hp).2 (hm hp).1 [] (by simp) ()
      rw [liftM] at h
      simp only [hp, Bool.and_true, if_true, h]
      cases he : p d .objectEnd (lift (.obj (siftM p (d + 1) [] ms)))
      · rw [lift] at he
        simp [asks, he]
      · have he' := he
        rw [lift] at he'
        simp [asks, he', lift]
theorem visitL_sift {p : Nat → Occasion → Part F → Bool} (d : Nat) : ∀ (vs : List (Json F)), MeekL p d vs →
    ∀ (acc : List (Json F)) (st : Unit),
    (visitL (asks p) true true d vs (liftL acc) st).1 = liftL (acc ++ siftL p d vs)
  | [], _, acc, st => by simp [visitL, siftL]
  | v :: vs, hm, acc, st => by
    rw [MeekL] at hm
    have h := visit_sift d v hm.1 st
    rw [visitL, siftL]
    have ha : liftL acc ++ added v (visit (asks p) true true d v st).1 = liftL (acc ++ (sift p d v).toList) := by
      rw [Suits] at h
      cases hsv : sift p d v with
      | some w =>
        rw [hsv] at h
        simp only at h
        rw [h, Option.toList_some, liftL_append]
        rfl
      | none =>
        rw [hsv] at h
        simp only at h
        rcases h with h | ⟨h, hg⟩
        · rw [h]; simp [added]
        · rw [h]
          simp only [added]
          cases ho : isObj v
          · simp
          · have := hm.2.1 ho (hg ho)
            rw [hsv] at this
            cases this
    rw [ha, visitL_sift d vs hm.2.2, List.append_assoc]
theorem visitM_sift {p : Nat → Occasion → Part F → Bool} (d : Nat) : ∀ (ms : List (Bytes × Json F)), MeekM p d ms →
    (ms.map Prod.fst).Nodup → ∀ (acc : List (Bytes × Json F)),
    (∀ k ∈ acc.map Prod.fst, k ∉ ms.map Prod.fst) → ∀ (st : Unit),
    (visitM (asks p) true true d ms (liftM acc) st).1 = liftM (siftM p d acc ms)
  | [], _, _, acc, _, st => by simp [visitM, siftM]
  | (k, v) :: ms, hm, hd, acc, hs, st => by
    rw [MeekM] at hm
    rw [List.map_cons, List.nodup_cons] at hd
    have hs1 : ∀ l ∈ acc.map Prod.fst, l ∉ ms.map Prod.fst := fun l hl h => hs l hl (by simp only [List.map_cons]; exact List.mem_cons_of_mem _ h)
    have hs2 : k ∉ acc.map Prod.fst := fun h => hs k h (by simp)
    rw [visitM, siftM]
    have hq : (asks p d .key (.str k) st) = (p d .key (.str k), .str k, ()) := rfl
    simp only [hq]
    cases hk : p d .key (.str k)
    · simp only [Bool.false_and, Bool.false_eq_true, if_false]
      rw [visit_dead]
      simp only [member]
      rw [dropFirst_lift, ite_self]
      exact visitM_sift d ms hm.2 hd.2 acc hs1 _
    · have hm1 := hm.1 hk
      have h := visit_sift d v hm1.1 ()
      simp only [Bool.true_and, if_true]
      rw [Suits] at h
      cases hsv : sift p d v with
      | some w =>
        rw [hsv] at h
        simp only at h ⊢
        rw [h]
        simp only [member]
        rw [setKey_setKey, liftM_setKey, dropFirst_lift, ite_self]
        refine visitM_sift d ms hm.2 hd.2 _ (fun l hl => ?_) _
        rcases keys_setKey hl with rfl | hl
        · exact hd.1
        · exact hs1 l hl
      | none =>
        rw [hsv] at h
        simp only at h ⊢
        have ho : isObj v = true := by
          cases ho : isObj v
          · have := hm1.2 ho
            rw [hsv] at this
            cases this
          · rfl
        rw [if_pos ho]
        have hg : member k (setKey k discarded (liftM acc)) (visit (asks p) true true d v ()).1 =
            setKey k discarded (liftM acc) := by
          rcases h with h | ⟨h, _⟩ <;> rw [h] <;> simp [member, setKey_setKey]
        rw [hg, dropFirst_set hs2]
        exact visitM_sift d ms hm.2 hd.2 acc hs1 _
end

/-- **C150** (what holds) What a callback without a state rejects is skipped, as if it had never been read – elements of arrays that are rejected
at once, arrays also at their ends; members by their keys, and members that are objects – provided nothing is rejected
otherwise, and no key occurs twice in an object; rejected as a whole, null is returned. -/
theorem C150_sifts_partial (fl : Floats F) (p : Nat → Occasion → Part F → Bool) (ex : Bool) (s : Bytes) (raw : Json F)
    (hs : IsText fl s raw) (hm : Meek p 0 raw) :
    parseCb fl (asks p) ex s () = .ok (lift ((sift p 0 raw).getD .null), ()) := by
  have h := visit_sift 0 raw hm ()
  rw [C150_visits fl _ ex s () raw hs]
  rw [Suits] at h
  cases hsv : sift p 0 raw with
  | some w =>
    rw [hsv] at h
    simp only at h
    rw [h]
    simp [Fate.top, isDiscarded_lift]
  | none =>
    rw [hsv] at h
    simp only at h
    rcases h with h | ⟨h, _⟩ <;> rw [h] <;> simp [Fate.top, lift]

theorem value_one (fl : Floats F) : Value fl [0x31] (.uint 1) :=
  .num (.uint (i := [0x31]) (.inr ⟨⟨by simp, by simp [Digit]⟩, by simp⟩) (by decide))

theorem chars_a : StrChars [0x61] [0x61] := by
  have := StrChars.cons (StrChar.plain (c := 0x61) (.inl (by decide)) (by decide) (by decide) (by decide)) .nil
  simpa [utf8] using this

theorem text_value {fl : Floats F} {t : Bytes} {raw : Json F} (h : Value fl t raw) : IsText fl t raw :=
  ⟨[], [], t, [], [], .inl rfl, Ws.nil, h, Ws.nil, .inl rfl, by simp⟩

/-- `[1,{"a":{}},[]]` without numbers, arrays at their ends and objects at depth 2: `[{}]` -/
example (fl : Floats F) (p : Nat → Occasion → Part F → Bool)
    (hp : p = fun d o v => !(o == .objectStart && d == 2) && !(o == .arrayEnd && d == 1) &&
      match v with | .uint _ => false | _ => true) :
    IsText fl [0x5B, 0x31, 0x2C, 0x7B, 0x22, 0x61, 0x22, 0x3A, 0x7B, 0x7D, 0x7D, 0x2C, 0x5B, 0x5D, 0x5D]
        (.arr [.uint 1, .obj [([0x61], .obj [])], .arr []]) ∧
      Meek p 0 (.arr [.uint 1, .obj [([0x61], .obj [])], .arr []] : Json F) ∧
      sift p 0 (.arr [.uint 1, .obj [([0x61], .obj [])], .arr []]) = some (.arr [.obj []]) := by
  subst hp
  refine ⟨?_, ?_, ?_⟩
  · have h3 := Value.obj (Members.one Ws.nil chars_a Ws.nil Ws.nil (.emptyObj (fl := fl) (w := []) Ws.nil) Ws.nil)
    exact text_value (.arr (Elements.cons Ws.nil (value_one fl) Ws.nil (Elements.cons Ws.nil h3 Ws.nil
      (.one Ws.nil (.emptyArr (w := []) Ws.nil) Ws.nil))))
  · simp [Meek, MeekL, MeekM, sift, siftL, siftM, isObj, discarded, lift, liftM]
  · simp [sift, siftL, siftM, discarded, lift, liftL, liftM]

/-- **C150** (what does not hold) A number, string or other simple value, or an array, that is rejected as the member of an object
is not skipped: the key stays, with a discarded value. Of `{"a":1}`, without numbers, `{"a":<discarded>}` is left. -/
theorem C150_member_fails (fl : Floats F) : ∃ (p : Nat → Occasion → Part F → Bool) (s : Bytes) (raw : Json F),
    IsText fl s raw ∧ sift p 0 raw = some (.obj []) ∧
      parseCb fl (asks p) true s () = .ok (.obj [([0x61], discarded)], ()) := by
  refine ⟨fun _ _ v => match v with | .uint _ => false | _ => true, [0x7B, 0x22, 0x61, 0x22, 0x3A, 0x31, 0x7D],
    .obj [([0x61], .uint 1)], ?_, ?_, by rfl⟩
  · exact text_value (.obj (Members.one Ws.nil chars_a Ws.nil Ws.nil (value_one fl) Ws.nil))
  · simp [sift, siftM, discarded, lift, liftM]

/-- **C150** (what does not hold) An object that is rejected at its end as the element of an array is not skipped: a discarded
value stays. Of `[{}]`, without ends of objects, `[<discarded>]` is left. -/
theorem C150_element_fails (fl : Floats F) : ∃ (p : Nat → Occasion → Part F → Bool) (s : Bytes) (raw : Json F),
    IsText fl s raw ∧ sift p 0 raw = some (.arr []) ∧
      parseCb fl (asks p) true s () = .ok (.arr [discarded], ()) := by
  refine ⟨fun _ o _ => o != .objectEnd, [0x5B, 0x7B, 0x7D, 0x5D], .arr [.obj []], ?_, ?_, by rfl⟩
  · exact text_value (.arr (.one Ws.nil (.emptyObj (w := []) Ws.nil) Ws.nil))
  · simp [sift, siftL]

/-- **C150** (what does not hold) An object that is rejected as the value of a key that has occurred before takes the value read
before away with it. Of `{"a":1,"a":{}}`, without objects at depth 1, `{}` is left and not `{"a":1}`. -/
theorem C150_again_fails (fl : Floats F) : ∃ (p : Nat → Occasion → Part F → Bool) (s : Bytes) (raw : Json F),
    IsText fl s raw ∧ sift p 0 raw = some (.obj [([0x61], .uint 1)]) ∧
      parseCb fl (asks p) true s () = .ok (.obj [], ()) := by
  refine ⟨fun d o _ => !(o == .objectStart && d == 1),
    [0x7B, 0x22, 0x61, 0x22, 0x3A, 0x31, 0x2C, 0x22, 0x61, 0x22, 0x3A, 0x7B, 0x7D, 0x7D],
    .obj [([0x61], .uint 1), ([0x61], .obj [])], ?_, ?_, by rfl⟩
  · exact text_value (.obj (Members.cons Ws.nil chars_a Ws.nil Ws.nil (value_one fl) Ws.nil
      (Members.one Ws.nil chars_a Ws.nil Ws.nil (.emptyObj (w := []) Ws.nil) Ws.nil)))
  · simp [sift, siftM, setKey]

/-- **C150** (what does not hold) What is within an array or object rejected at its start is not skipped for the callback: it is
asked about the arrays and objects inside, about the keys, and about simple values directly within an inner array or object it
accepts. In `[[1]]` a callback that rejects depth 0 is still told of the inner array and of the number. -/
theorem C150_skipped_fails (fl : Floats F) : ∃ (cb : Callback F (List (Nat × Occasion × Part F))) (s : Bytes) (raw : Json F),
    IsText fl s raw ∧ (∀ v st, (cb 0 .arrayStart v st).1 = false) ∧
      parseCb fl cb true s [] = .ok (.null, [(0, .arrayStart, discarded), (1, .arrayStart, discarded), (2, .value, .uint 1)]) := by
  refine ⟨fun d o v st => (d != 0, v, st ++ [(d, o, v)]), [0x5B, 0x5B, 0x31, 0x5D, 0x5D], .arr [.arr [.uint 1]], ?_,
    fun _ _ => rfl, by rfl⟩
  exact text_value (.arr (.one Ws.nil (.arr (.one Ws.nil (value_one fl) Ws.nil)) Ws.nil))

end Verif.Json
