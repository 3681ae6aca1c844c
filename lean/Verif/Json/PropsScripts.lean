import Verif.Json.ScriptsModel
import Verif.Json.Props

/-!
# The list of scripts, from the bytes of the input file
-/

namespace Verif.Json
open Spec

/-! ## What the file says -/

/-- `ss` are the names an input file's value lists under `catalyst-scripts`; the value as it stands in
the text, so that a name given twice counts once, with its last value -/
inductive Lists : Json F → List Bytes → Prop
  | other {v : Json F} : (∀ ms, v ≠ .obj ms) → Lists v []
  | absent {ms : List (Bytes × Json F)} : (∀ x ∈ ms, x.1 ≠ scriptsKey) → Lists (.obj ms) []
  | null {a b : List (Bytes × Json F)} : (∀ x ∈ b, x.1 ≠ scriptsKey) →
      Lists (.obj (a ++ (scriptsKey, .null) :: b)) []
  | emptyObj {a b : List (Bytes × Json F)} : (∀ x ∈ b, x.1 ≠ scriptsKey) →
      Lists (.obj (a ++ (scriptsKey, .obj []) :: b)) []
  | names {a b : List (Bytes × Json F)} (ss : List Bytes) : (∀ x ∈ b, x.1 ≠ scriptsKey) →
      Lists (.obj (a ++ (scriptsKey, .arr (ss.map .str)) :: b)) ss

/-- the directory of a file name: what stands before the last slash, and (the code's choice) all of
the name if it has none -/
inductive Dir : Bytes → Bytes → Prop
  | slash {d base : Bytes} : 0x2F ∉ base → Dir (d ++ 0x2F :: base) d
  | none {name : Bytes} : 0x2F ∉ name → Dir name name

/-! ## Lemmas -/

theorem lookup_iff {k : Bytes} {w : Json F} : ∀ {ms : List (Bytes × Json F)}, SortedM ms →
    (lookup k ms = some w ↔ (k, w) ∈ ms)
  | [], _ => by simp [lookup]
  | (k', v') :: ms, hs => by
    have hs' := List.pairwise_cons.1 hs
    have ih := lookup_iff (k := k) (w := w) hs'.2
    rw [lookup]
    by_cases h : keyLt k k' = true ∨ keyLt k' k = true
    · rw [if_pos h, ih, List.mem_cons]
      constructor
      · exact Or.inr
      · rintro (e | e)
        · cases e
          rw [keyLt_irrefl] at h; simp at h
        · exact e
    · rw [if_neg h]
      have e : k = k' := keyLt_total (fun h1 => h (.inl h1)) (fun h1 => h (.inr h1))
      subst e
      rw [List.mem_cons]
      constructor
      · intro h'; cases h'; exact .inl rfl
      · rintro (e | e)
        · cases e; rfl
        · have := keyLt_iff.2 (hs'.1 _ e)
          rw [keyLt_irrefl] at this; cases this

theorem lookup_tidy {k : Bytes} {w : Json F} {ms : List (Bytes × Json F)} :
    lookup k (tidyM [] ms) = some w ↔
      ∃ a v b, ms = a ++ (k, v) :: b ∧ (∀ x ∈ b, x.1 ≠ k) ∧ w = tidy v := by
  rw [lookup_iff (sorted_tidyM ms [] List.Pairwise.nil), mem_tidyM k w ms [] List.Pairwise.nil]
  simp

/-- the names in a list of values, if all are strings -/
def strs : List (Json F) → Option (List Bytes)
  | [] => some []
  | .str s :: xs => (strs xs).map (s :: ·)
  | _ :: _ => none

theorem strs_iff : ∀ {xs : List (Json F)} {ss : List Bytes}, strs xs = some ss ↔ xs = ss.map .str
  | [], ss => by
    cases ss <;> simp [strs]
  | x :: xs, ss => by
    cases x with
    | str s =>
      rw [strs, Option.map_eq_some_iff]
      constructor
      · rintro ⟨ts, h, rfl⟩
        rw [strs_iff.1 h]; rfl
      · intro h
        cases ss with
        | nil => cases h
        | cons t ts => cases h; exact ⟨ts, strs_iff.2 rfl, rfl⟩
    | _ => cases ss <;> simp [strs]

theorem member_obj {k : Bytes} {ms : List (Bytes × Json F)} {x : Json F} (h : lookup k ms = some x) :
    (Json.obj ms).member k = .ok (x, .obj ms) := by simp only [Json.member, h]

theorem index_arr {xs : List (Json F)} {i : Nat} {y : Json F} {ys : List (Json F)}
    (h : xs.drop i = y :: ys) : (Json.arr xs).index i = .ok (y, .arr xs) := by
  have hi : i < xs.length := by
    rcases Nat.lt_or_ge i xs.length with hi | hi
    · exact hi
    · rw [List.drop_of_length_le hi] at h; cases h
  have hy : xs[i]? = some y := by
    rw [List.drop_eq_getElem_cons hi] at h
    cases h
    exact List.getElem?_eq_getElem hi
  simp only [Json.index, if_neg (Nat.not_le.2 hi), hy]

theorem scriptsLoop_arr (path : Bytes) (xs : List (Json F)) : ∀ (n i : Nat)
    (ms : List (Bytes × Json F)) (acc : List Bytes), lookup scriptsKey ms = some (.arr xs) →
    xs.length - i < n →
    scriptsLoop path n i (.obj ms) acc = match strs (xs.drop i) with
      | some ss => .ok (acc ++ ss.map fun s => path ++ 0x2F :: s)
      | none => .throws "type_error.302" := by
  intro n
  induction n with
  | zero => intro i ms acc _ h; omega
  | succ n ih =>
    intro i ms acc hl hn
    rw [scriptsLoop, member_obj hl]
    have hsz : (Json.arr xs).size = xs.length := rfl
    rcases hd : xs.drop i with _ | ⟨y, ys⟩
    · have : xs.length ≤ i := List.drop_eq_nil_iff.1 hd
      simp only
      rw [if_neg (by omega)]
      simp [strs]
    · have hi : i < xs.length := by
        rcases Nat.lt_or_ge i xs.length with hi | hi
        · exact hi
        · rw [List.drop_of_length_le hi] at hd; cases hd
      simp only
      rw [if_pos (by omega), index_arr hd]
      have hys : xs.drop (i + 1) = ys := by
        rw [← List.drop_drop, hd]; rfl
      cases y with
      | str s =>
        simp only [Json.toStr]
        rw [ih (i + 1) _ _ (lookup_setKey _ _ _) (by omega), hys, strs]
        cases strs ys <;> simp
      | _ => simp [Json.toStr, strs]

theorem lastSlash_none : ∀ {s : Bytes}, lastSlash s = none ↔ 0x2F ∉ s
  | [] => by simp [lastSlash]
  | c :: s => by
    rw [lastSlash, List.mem_cons, not_or]
    have ih := lastSlash_none (s := s)
    cases h : lastSlash s with
    | some i =>
      rw [h] at ih
      simp only [reduceCtorEq, false_iff, not_and]
      exact fun _ h' => by simp [h'] at ih
    | none =>
      have := ih.1 h
      by_cases hc : c = 0x2F
      · simp [hc]
      · simp only [hc, if_false, true_iff]
        exact ⟨fun e => hc e.symm, this⟩

theorem lastSlash_append (d base : Bytes) (h : 0x2F ∉ base) :
    lastSlash (d ++ 0x2F :: base) = some d.length := by
  induction d with
  | nil => simp [lastSlash, lastSlash_none.2 h]
  | cons c d ih => rw [List.cons_append, lastSlash, ih]; rfl

theorem dir_path {name d : Bytes} (h : Dir name d) : scriptsPath name = d := by
  cases h with
  | slash h =>
    rw [scriptsPath, lastSlash_append _ _ h]
    simp
  | none h => rw [scriptsPath, lastSlash_none.2 h]

theorem dir_exists : ∀ name : Bytes, ∃ d, Dir name d := by
  intro name
  by_cases h : (0x2F : Nat) ∈ name
  · induction name with
    | nil => cases h
    | cons c s ih =>
      by_cases hs : (0x2F : Nat) ∈ s
      · obtain ⟨d, hd⟩ := ih hs
        cases hd with
        | slash hb => exact ⟨c :: d, .slash (d := c :: d) hb⟩
        | none hb => exact absurd hs hb
      · have : c = 0x2F := by
          rcases List.mem_cons.1 h with h | h
          · exact h.symm
          · exact absurd h hs
        subst this
        exact ⟨[], .slash (d := []) hs⟩
  · exact ⟨name, .none h⟩

theorem tidyL_str (ss : List Bytes) : tidyL (ss.map (Json.str : Bytes → Json F)) = ss.map .str := by
  induction ss with
  | nil => rw [List.map_nil, tidyL]
  | cons s ss ih => rw [List.map_cons, tidyL, ih, tidy]

theorem tidyL_nil {vs : List (Json F)} (h : tidyL vs = []) : vs = [] := by
  cases vs with
  | nil => rfl
  | cons v vs => rw [tidyL] at h; cases h

theorem tidy_str {v : Json F} {s : Bytes} (h : tidy v = .str s) : v = .str s := by
  cases v with
  | str t => rw [tidy] at h; exact h
  | _ => rw [tidy] at h; cases h

theorem tidyL_strs {vs : List (Json F)} : ∀ {ss : List Bytes}, tidyL vs = ss.map .str →
    vs = ss.map .str := by
  induction vs with
  | nil => intro ss h; rw [tidyL] at h; cases ss <;> first | rfl | cases h
  | cons v vs ih =>
    intro ss h
    rw [tidyL] at h
    cases ss with
    | nil => cases h
    | cons s ss =>
      rw [List.map_cons] at h ⊢
      injection h with h1 h2
      rw [tidy_str h1, ih h2]

/-- a member of an object with the name, the last of them -/
theorem last_member (k : Bytes) (ms : List (Bytes × Json F)) :
    (∀ x ∈ ms, x.1 ≠ k) ∨ ∃ a v b, ms = a ++ (k, v) :: b ∧ ∀ x ∈ b, x.1 ≠ k := by
  induction ms with
  | nil => exact .inl (by simp)
  | cons m ms ih =>
    rcases ih with h | ⟨a, v, b, rfl, hb⟩
    · by_cases hk : m.1 = k
      · subst hk; exact .inr ⟨[], m.2, ms, rfl, h⟩
      · refine .inl fun x hx => ?_
        rcases List.mem_cons.1 hx with rfl | hx
        · exact hk
        · exact h x hx
    · exact .inr ⟨m :: a, v, b, rfl, hb⟩

theorem lookup_absent {k : Bytes} {ms : List (Bytes × Json F)} (h : ∀ x ∈ ms, x.1 ≠ k) :
    lookup k (tidyM [] ms) = none := by
  cases hl : lookup k (tidyM [] ms) with
  | none => rfl
  | some w =>
    obtain ⟨a, v, b, rfl, _, _⟩ := lookup_tidy.1 hl
    exact absurd rfl (h (k, v) (by simp))

theorem lookup_last {k : Bytes} {a b : List (Bytes × Json F)} {v : Json F}
    (h : ∀ x ∈ b, x.1 ≠ k) : lookup k (tidyM [] (a ++ (k, v) :: b)) = some (tidy v) :=
  lookup_tidy.2 ⟨a, v, b, rfl, h, rfl⟩

/-- what becomes of the value read -/
theorem scripts_of_value (path : Bytes) (raw : Json F) :
    let o := if (tidy raw).has scriptsKey then
        scriptsLoop path (scriptsFuel (tidy raw)) 0 (tidy raw) [] else .ok []
    (∀ ys, o = .ok ys ↔ ∃ ss, Lists raw ss ∧ ys = ss.map fun s => path ++ 0x2F :: s) ∧
      ((∃ ys, o = .ok ys) ∨ o = .throws "type_error.302" ∨ o = .throws "type_error.305") := by
  have none_case : ∀ (r : Json F), (∀ ss, Lists r ss ↔ ss = []) →
      ∀ o : Outcome (List Bytes), o = .ok [] →
      (∀ ys, o = .ok ys ↔ ∃ ss, Lists r ss ∧ ys = ss.map fun s => path ++ 0x2F :: s) ∧
        ((∃ ys, o = .ok ys) ∨ o = .throws "type_error.302" ∨ o = .throws "type_error.305") := by
    intro r hr o ho
    refine ⟨fun ys => ?_, .inl ⟨_, ho⟩⟩
    rw [ho]
    constructor
    · intro h; cases h; exact ⟨[], (hr []).2 rfl, rfl⟩
    · rintro ⟨ss, h, rfl⟩
      rw [(hr ss).1 h]; rfl
  have bad_case : ∀ (r : Json F), (∀ ss, ¬ Lists r ss) →
      ∀ o : Outcome (List Bytes), o = .throws "type_error.302" ∨ o = .throws "type_error.305" →
      (∀ ys, o = .ok ys ↔ ∃ ss, Lists r ss ∧ ys = ss.map fun s => path ++ 0x2F :: s) ∧
        ((∃ ys, o = .ok ys) ∨ o = .throws "type_error.302" ∨ o = .throws "type_error.305") := by
    intro r hr o ho
    refine ⟨fun ys => ⟨fun h => ?_, fun ⟨ss, h, _⟩ => absurd h (hr ss)⟩, .inr ho⟩
    rcases ho with ho | ho <;> rw [ho] at h <;> cases h
  cases raw with
  | obj ms =>
    dsimp only
    rw [show tidy (.obj ms) = .obj (tidyM [] ms) by rw [tidy]]
    rcases last_member scriptsKey ms with habs | ⟨a, v, b, rfl, hb⟩
    · refine none_case _ (fun ss => ⟨fun h => ?_, fun h => by rw [h]; exact .absent habs⟩) _ ?_
      · generalize hg : (Json.obj ms : Json F) = r at h
        cases h with
        | other h => exact absurd hg.symm (h ms)
        | absent _ => rfl
        | null _ => rfl
        | emptyObj _ => rfl
        | names ss _ =>
          injection hg with hg
          subst hg
          exact absurd rfl (habs (scriptsKey, _) (by simp; exact .inr (.inl rfl)))
      · simp only [Json.has, lookup_absent habs]; rfl
    · have hl := lookup_last (k := scriptsKey) (a := a) (v := v) hb
      have huniq : ∀ ss, Lists (.obj (a ++ (scriptsKey, v) :: b)) ss →
          (v = .null ∧ ss = []) ∨ (v = .obj [] ∧ ss = []) ∨ v = .arr (ss.map .str) := by
        intro ss h
        have key : ∀ a' v' b', (∀ x ∈ b', x.1 ≠ scriptsKey) →
            a ++ (scriptsKey, v) :: b = a' ++ (scriptsKey, v') :: b' → tidy v = tidy v' := by
          intro a' v' b' hb' e
          have h1 := lookup_last (k := scriptsKey) (a := a') (v := v') hb'
          rw [← e, hl] at h1
          injection h1
        generalize hg : (Json.obj (a ++ (scriptsKey, v) :: b) : Json F) = r at h
        cases h with
        | other h => exact absurd hg.symm (h _)
        | absent habs =>
          injection hg with hg
          subst hg
          exact absurd rfl (habs (scriptsKey, v) (by simp))
        | null hb' =>
          injection hg with hg
          have := key _ _ _ hb' hg
          rw [show tidy (Json.null : Json F) = .null by rw [tidy]] at this
          refine .inl ⟨?_, rfl⟩
          cases v <;> first | rfl | (rw [tidy] at this; cases this)
        | emptyObj hb' =>
          injection hg with hg
          have := key _ _ _ hb' hg
          rw [show tidy (Json.obj [] : Json F) = .obj [] by rw [tidy, tidyM]] at this
          refine .inr (.inl ⟨?_, rfl⟩)
          cases v with
          | obj ms =>
            rw [tidy] at this
            injection this with this
            cases ms with
            | nil => rfl
            | cons m ms =>
              have := (mem_tidyM m.1 (tidy m.2) [m] [] List.Pairwise.nil).2
                (.inl ⟨[], m.2, [], rfl, by simp, rfl⟩)
              have hne : ∃ a v b, m :: ms = a ++ (m.1, v) :: b ∧ ∀ x ∈ b, x.1 ≠ m.1 := by
                rcases last_member m.1 (m :: ms) with h | h
                · exact absurd rfl (h m (by simp))
                · exact h
              obtain ⟨a1, v1, b1, e1, hb1⟩ := hne
              have h2 := lookup_last (k := m.1) (a := a1) (v := v1) hb1
              rw [← e1] at h2
              simp_all [lookup]
          | _ => rw [tidy] at this; cases this
        | names ss' hb' =>
          injection hg with hg
          have := key _ _ _ hb' hg
          refine .inr (.inr ?_)
          cases v with
          | arr xs =>
            rw [tidy, tidy, tidyL_str] at this
            injection this with this
            rw [tidyL_strs this]
          | _ => rw [tidy, tidy] at this; cases this
      have hhas : (Json.obj (tidyM [] (a ++ (scriptsKey, v) :: b))).has scriptsKey = true := by
        simp only [Json.has, hl]; rfl
      have hfuel : scriptsFuel (Json.obj (tidyM [] (a ++ (scriptsKey, v) :: b))) =
          (tidy v).size + 1 := by
        simp only [scriptsFuel, member_obj hl]
      rw [if_pos hhas, hfuel]
      have scalar : (tidy v).size = 1 → ((tidy v).index 0 = .throws "type_error.305") →
          (∀ ss : List Bytes, ¬ ((v = .null ∧ ss = []) ∨ (v = .obj [] ∧ ss = []) ∨
            v = .arr (ss.map .str))) →
          (∀ ys, scriptsLoop path ((tidy v).size + 1) 0
            (Json.obj (tidyM [] (a ++ (scriptsKey, v) :: b))) [] = .ok ys ↔
            ∃ ss, Lists (.obj (a ++ (scriptsKey, v) :: b)) ss ∧
              ys = ss.map fun s => path ++ 0x2F :: s) ∧
          ((∃ ys, scriptsLoop path ((tidy v).size + 1) 0
            (Json.obj (tidyM [] (a ++ (scriptsKey, v) :: b))) [] = .ok ys) ∨
            scriptsLoop path ((tidy v).size + 1) 0
            (Json.obj (tidyM [] (a ++ (scriptsKey, v) :: b))) [] = .throws "type_error.302" ∨
            scriptsLoop path ((tidy v).size + 1) 0
            (Json.obj (tidyM [] (a ++ (scriptsKey, v) :: b))) [] = .throws "type_error.305") := by
        intro h1 h2 h3
        refine bad_case _ (fun ss h => h3 ss (huniq ss h)) _ (.inr ?_)
        rw [scriptsLoop, member_obj hl]
        simp only [h1, Nat.lt_add_one, if_true, h2]
      cases v with
      | null =>
        refine none_case _ (fun ss => ⟨fun h => ?_, fun h => by rw [h]; exact .null hb⟩) _ ?_
        · rcases huniq ss h with h | h | h
          · exact h.2
          · exact h.2
          · cases h
        · rw [scriptsLoop, member_obj hl]
          simp [tidy, Json.size]
      | arr xs =>
        have hloop := scriptsLoop_arr path (tidyL xs) ((tidy (.arr xs)).size + 1) 0
          (tidyM [] (a ++ (scriptsKey, .arr xs) :: b)) [] (by rw [hl, tidy])
          (by rw [tidy, Json.size]; omega)
        rw [List.drop_zero] at hloop
        cases hs : strs (tidyL xs) with
        | none =>
          rw [hs] at hloop
          refine bad_case _ (fun ss h => ?_) _ (.inl hloop)
          rcases huniq ss h with h | h | h
          · cases h.1
          · cases h.1
          · injection h with h
            rw [h, tidyL_str, strs_iff.2 rfl] at hs
            cases hs
        | some ss =>
          rw [hs] at hloop
          simp only [List.nil_append] at hloop
          have hx := tidyL_strs (strs_iff.1 hs)
          subst hx
          refine ⟨fun ys => ?_, .inl ⟨_, hloop⟩⟩
          rw [hloop]
          constructor
          · intro h; cases h
            exact ⟨ss, .names ss hb, rfl⟩
          · rintro ⟨ss', h, rfl⟩
            rcases huniq ss' h with h | h | h
            · cases h.1
            · cases h.1
            · injection h with h
              have : (strs (ss.map (Json.str : Bytes → Json F))) = some ss' := strs_iff.2 h
              rw [strs_iff.2 rfl] at this
              injection this with this
              rw [this]
      | obj ms =>
        by_cases hms : tidyM [] ms = []
        · have hms' : ms = [] := by
            cases ms with
            | nil => rfl
            | cons m ms =>
              rcases last_member m.1 (m :: ms) with h | ⟨a1, v1, b1, e1, hb1⟩
              · exact absurd rfl (h m (by simp))
              · have h2 := lookup_last (k := m.1) (a := a1) (v := v1) hb1
                rw [← e1, hms] at h2
                cases h2
          subst hms'
          refine none_case _ (fun ss => ⟨fun h => ?_, fun h => by rw [h]; exact .emptyObj hb⟩) _ ?_
          · rcases huniq ss h with h | h | h
            · exact h.2
            · exact h.2
            · cases h
          · rw [scriptsLoop, member_obj hl]
            simp [tidy, tidyM, Json.size]
        · refine bad_case _ (fun ss h => ?_) _ (.inr ?_)
          · rcases huniq ss h with h | h | h
            · cases h.1
            · have := h.1
              injection this with this
              rw [this, tidyM] at hms
              exact hms rfl
            · cases h
          · rw [scriptsLoop, member_obj hl]
            have : 0 < (tidyM [] ms).length := List.length_pos_iff.2 hms
            simp [tidy, Json.size, Json.index, this]
      | bool _ => exact scalar (by rw [tidy]; rfl) (by rw [tidy]; rfl) (by simp)
      | int _ => exact scalar (by rw [tidy]; rfl) (by rw [tidy]; rfl) (by simp)
      | uint _ => exact scalar (by rw [tidy]; rfl) (by rw [tidy]; rfl) (by simp)
      | float _ => exact scalar (by rw [tidy]; rfl) (by rw [tidy]; rfl) (by simp)
      | str _ => exact scalar (by rw [tidy]; rfl) (by rw [tidy]; rfl) (by simp)
  | _ =>
    refine none_case _ (fun ss => ⟨fun h => ?_, fun h => by rw [h]; exact .other (by simp)⟩) _ ?_
    · cases h; rfl
    · simp only [tidy, Json.has]; rfl

/-! ## C112: the scripts an input file names -/

/-- **C112** The scripts are found exactly if the file begins with the text of a JSON value whose
`catalyst-scripts` (the last, if it is given more than once) is missing, empty or an array of
strings; they are those strings, in their order, with the directory of the file before them.
Without a file name there are none. -/
theorem C112_scripts_iff (fl : Floats F) (name : Bytes) (file : Option Bytes) (ys : List Bytes) :
    catalystScripts fl name file = .ok ys ↔
      (name = [] ∧ ys = []) ∨
      (name ≠ [] ∧ ∃ s b w t r raw d ss, file = some s ∧ Bom b ∧ Ws w ∧ Value fl t raw ∧
        (IsNumber raw → Munch t r) ∧ s = b ++ w ++ t ++ r ∧ Lists raw ss ∧ Dir name d ∧
        ys = ss.map fun x => d ++ 0x2F :: x) := by
  rw [catalystScripts]
  by_cases hn : name = []
  · rw [if_neg (by simpa using hn)]
    simp only [hn, true_and, not_true_eq_false, ne_eq, false_and, or_false, Outcome.ok.injEq]
    exact eq_comm
  rw [if_pos hn]
  simp only [hn, false_and, false_or, ne_eq, not_false_eq_true, true_and]
  constructor
  · intro h
    rcases hx : extract fl .null (file.getD []) with ⟨v, rest⟩ | _ | _ | _ | _ | _ <;> rw [hx] at h
    all_goals try cases h
    obtain ⟨b, w, t, r, raw, hb, hw, hv, hm, e, rfl, _, _⟩ := (C111_stream_iff fl _ _ _ _).1 hx
    obtain ⟨ss, hl, rfl⟩ := ((scripts_of_value (scriptsPath name) raw).1 ys).1 h
    cases file with
    | none =>
      exfalso
      rw [Option.getD_none] at hx
      rw [show extract fl .null [] = .throws "parse_error.101" from rfl] at hx
      cases hx
    | some s =>
      obtain ⟨d, hd⟩ := dir_exists name
      exact ⟨s, b, w, t, r, raw, d, ss, rfl, hb, hw, hv, hm, e, hl, hd, by rw [dir_path hd]⟩
  · rintro ⟨s, b, w, t, r, raw, d, ss, rfl, hb, hw, hv, hm, e, hl, hd, rfl⟩
    have hx : extract fl .null ((some s).getD []) =
        .ok (tidy raw, if raw.isNum then r.tail else r) :=
      (extract_iff fl).2 ⟨raw, r, ⟨b, w, t, hb, hw, hv, hm, e⟩, rfl, rfl⟩
    simp only [hx]
    rw [← dir_path hd]
    exact ((scripts_of_value (scriptsPath name) raw).1 _).2 ⟨ss, hl, rfl⟩

/-- the file `run/in` with the text `{"catalyst-scripts":["a"]}` -/
example (fl : Floats F) :
    catalystScripts fl [0x72, 0x75, 0x6E, 0x2F, 0x69, 0x6E]
      (some ([0x7B, 0x22] ++ scriptsKey ++ [0x22, 0x3A, 0x5B, 0x22, 0x61, 0x22, 0x5D, 0x7D])) =
      .ok [[0x72, 0x75, 0x6E, 0x2F, 0x61]] := by rfl

/-- **C112** The function always returns or throws one of four documented exceptions; it does not hang and
touches no memory it may not. -/
theorem C112_outcomes (fl : Floats F) (name : Bytes) (file : Option Bytes) :
    (∃ ys, catalystScripts fl name file = .ok ys) ∨
      ∃ k ∈ ["parse_error.101", "out_of_range.406", "type_error.302", "type_error.305"],
        catalystScripts fl name file = .throws k := by
  rw [catalystScripts]
  by_cases hn : name = []
  · rw [if_neg (by simpa using hn)]; exact .inl ⟨_, rfl⟩
  rw [if_pos hn]
  rcases C111_terminates fl .null (file.getD []) with ⟨⟨v, rest⟩, hx⟩ | hx | hx
  · obtain ⟨b, w, t, r, raw, hb, hw, hv, hm, e, rfl, _, _⟩ := (C111_stream_iff fl _ _ _ _).1 hx
    simp only [hx]
    rcases (scripts_of_value (scriptsPath name) raw).2 with h | h | h
    · exact .inl h
    · exact .inr ⟨_, by simp, h⟩
    · exact .inr ⟨_, by simp, h⟩
  · simp only [hx]; exact .inr ⟨_, by simp, rfl⟩
  · simp only [hx]; exact .inr ⟨_, by simp, rfl⟩

/-- a missing file; a single string in place of the list; a number in the list -/
example (fl : Floats F) :
    catalystScripts fl [0x61] none = .throws "parse_error.101" ∧
    catalystScripts fl [0x61]
      (some ([0x7B, 0x22] ++ scriptsKey ++ [0x22, 0x3A, 0x22, 0x61, 0x22, 0x7D])) =
      .throws "type_error.305" ∧
    catalystScripts fl [0x61]
      (some ([0x7B, 0x22] ++ scriptsKey ++ [0x22, 0x3A, 0x5B, 0x31, 0x5D, 0x7D])) =
      .throws "type_error.302" := ⟨by rfl, by rfl, by rfl⟩

/-- **C112** fails in that a damaged file is not noticed: text after the first value is not looked at. -/
theorem C112_rest_unread_fails (fl : Floats F) :
    ∃ file ys, catalystScripts fl [0x61] (some file) = .ok ys ∧
      ∀ v, parseAll fl file ≠ .ok v := by
  refine ⟨[0x7B, 0x7D, 0x7D], [], rfl, fun v => ?_⟩
  rw [show parseAll fl [0x7B, 0x7D, 0x7D] = .throws "parse_error.101" from rfl]
  simp

/-- **C112** A file that holds one JSON text: the scripts are those of the value the text stands for. -/
theorem C112_whole_file_partial (fl : Floats F) (dir base s b w t w' : Bytes) (raw : Json F)
    (ss : List Bytes) (hd : 0x2F ∉ base) (hb : Bom b) (hw : Ws w) (hv : Value fl t raw) (hw' : Ws w')
    (hs : s = b ++ w ++ t ++ w') (hl : Lists raw ss) :
    parseAll fl s = .ok (tidy raw) ∧
    catalystScripts fl (dir ++ 0x2F :: base) (some s) = .ok (ss.map fun x => dir ++ 0x2F :: x) := by
  refine ⟨(C110_reads_iff fl s _).2 ⟨b, w, t, w', [], raw, hb, hw, hv, hw', .inl rfl,
    by rw [List.append_nil]; exact hs, rfl⟩, ?_⟩
  exact (C112_scripts_iff fl _ _ _).2 (.inr ⟨by simp, s, b, w, t, w', raw, dir, ss, rfl, hb, hw, hv,
    fun _ => munch_ws_end hw', hs, hl, .slash hd, rfl⟩)

/-- the hypotheses are met by the text `[]` -/
example (fl : Floats F) : catalystScripts fl [0x72, 0x2F, 0x69] (some [0x5B, 0x5D]) = .ok [] :=
  (C112_whole_file_partial fl [0x72] [0x69] [0x5B, 0x5D] [] [] [0x5B, 0x5D] [] (.arr []) []
    (by decide) (.inl rfl) Ws.nil (.emptyArr (w := []) Ws.nil) Ws.nil rfl (.other (by simp))).2

end Verif.Json
