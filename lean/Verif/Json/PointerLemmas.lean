import Verif.Json.PointerModel
import Verif.Json.IntLemmas
import Verif.Json.DomLemmas
import Mathlib.Data.List.Induction

/-!
# Lemmas about the text of pointers and about array indices
-/

namespace Verif.Json
open Spec

namespace Spec

/-- `reference-token` of RFC 6901, section 3: its text and what it stands for -/
inductive RefToken : Bytes → Bytes → Prop
  | nil : RefToken [] []
  | plain {c : Nat} {e t : Bytes} (h1 : c ≠ 0x2f) (h2 : c ≠ 0x7e) : RefToken e t → RefToken (c :: e) (c :: t)
  | tilde {e t : Bytes} : RefToken e t → RefToken (0x7e :: 0x30 :: e) (0x7e :: t)
  | slash {e t : Bytes} : RefToken e t → RefToken (0x7e :: 0x31 :: e) (0x2f :: t)

/-- `json-pointer` of RFC 6901, section 3: its text and its tokens -/
inductive Pointer : Bytes → List Bytes → Prop
  | root : Pointer [] []
  | step {e t s : Bytes} {ts : List Bytes} : RefToken e t → Pointer s ts → Pointer (0x2f :: e ++ s) (t :: ts)

end Spec

/-! ## Escaping -/

/-- a token escaped, byte by byte -/
def esc : Bytes → Bytes
  | [] => []
  | c :: s => if c = 0x7e then 0x7e :: 0x30 :: esc s else if c = 0x2f then 0x7e :: 0x31 :: esc s else c :: esc s

theorem replaceAll_one (a : Nat) (t : Bytes) : ∀ s : Bytes,
    replaceAll [a] t s = s.flatMap (fun c => if c = a then t else [c])
  | [] => by rw [replaceAll]; rfl
  | c :: s => by
    rw [replaceAll]
    by_cases h : a = c
    · have h1 : dropPrefix [a] (c :: s) = some s := by simp [dropPrefix, h]
      split
      · rename_i r hr
        rw [h1] at hr
        cases hr
        rw [dif_neg (by simp), replaceAll_one a t s]
        simp [h]
      · rename_i hr
        rw [h1] at hr
        cases hr
    · have h1 : dropPrefix [a] (c :: s) = none := by simp [dropPrefix, h]
      split
      · rename_i r hr
        rw [h1] at hr
        cases hr
      · rw [replaceAll_one a t s]
        simp [show c ≠ a from fun e => h e.symm]

theorem replaceAll_hit {f t s r : Bytes} (hf : f ≠ []) (h : dropPrefix f s = some r) :
    replaceAll f t s = t ++ replaceAll f t r := by
  cases s with
  | nil =>
    cases f with
    | nil => exact absurd rfl hf
    | cons a f => simp [dropPrefix] at h
  | cons c s =>
    rw [replaceAll]
    split
    · rename_i r' hr'
      rw [h] at hr'
      cases hr'
      rw [dif_neg hf]
    · rename_i hr'
      rw [h] at hr'
      cases hr'

theorem replaceAll_miss {f t s : Bytes} {c : Nat} (h : dropPrefix f (c :: s) = none) :
    replaceAll f t (c :: s) = c :: replaceAll f t s := by
  rw [replaceAll]
  split
  · rename_i r' hr'
    rw [h] at hr'
    cases hr'
  · rfl

theorem escape_eq : ∀ s : Bytes, escape s = esc s
  | [] => by simp [escape, esc, replaceAll_one]
  | c :: s => by
    have ih := escape_eq s
    rw [escape, replaceAll_one, replaceAll_one] at ih
    rw [escape, replaceAll_one, replaceAll_one, List.flatMap_cons, List.flatMap_append, ih, esc]
    by_cases h1 : c = 0x7e
    · simp [h1]
    · by_cases h2 : c = 0x2f
      · simp [h2]
      · simp [h1, h2]

theorem unescape_esc (s : Bytes) : unescape (esc s) = s := by
  have h1 : ∀ s : Bytes, replaceAll [0x7e, 0x31] [0x2f] (esc s) = s.flatMap (fun c => if c = 0x7e then [0x7e, 0x30] else [c])
  := by
    intro s
    induction s with
    | nil => rw [esc, replaceAll]; rfl
    | cons c s ih =>
      rw [esc, List.flatMap_cons]
      by_cases h1 : c = 0x7e
      · rw [if_pos h1, if_pos h1, replaceAll_miss (by simp [dropPrefix]), replaceAll_miss (by simp [dropPrefix]), ih]
        rfl
      · rw [if_neg h1, if_neg h1]
        by_cases h2 : c = 0x2f
        · rw [if_pos h2, replaceAll_hit (by simp) (r := esc s) (by simp [dropPrefix]), ih, h2]
        · rw [if_neg h2, replaceAll_miss (by simp [dropPrefix]; omega), ih]
          rfl
  have h2 : ∀ s : Bytes, replaceAll [0x7e, 0x30] [0x7e] (s.flatMap (fun c => if c = 0x7e then [0x7e, 0x30] else [c])) = s := by
    intro s
    induction s with
    | nil => rw [List.flatMap_nil, replaceAll]
    | cons c s ih =>
      rw [List.flatMap_cons]
      by_cases h1 : c = 0x7e
      · rw [if_pos h1]
        simp only [List.cons_append, List.nil_append]
        rw [replaceAll_hit (r := _) (by simp) (by simp [dropPrefix]; rfl), ih, h1]
        rfl
      · rw [if_neg h1]
        simp only [List.cons_append, List.nil_append]
        rw [replaceAll_miss (by simp [dropPrefix]; omega), ih]
  rw [unescape, h1, h2]

theorem token_esc : ∀ t : Bytes, RefToken (esc t) t
  | [] => .nil
  | c :: t => by
    rw [esc]
    by_cases h1 : c = 0x7e
    · rw [if_pos h1, h1]; exact .tilde (token_esc t)
    · rw [if_neg h1]
      by_cases h2 : c = 0x2f
      · rw [if_pos h2, h2]; exact .slash (token_esc t)
      · rw [if_neg h2]; exact .plain h2 h1 (token_esc t)

theorem Spec.RefToken.eq_esc {e t : Bytes} (h : RefToken e t) : e = esc t := by
  induction h with
  | nil => rfl
  | plain h1 h2 _ ih => rw [esc, if_neg h2, if_neg h1, ih]
  | tilde _ ih => simp [esc, ih]
  | slash _ ih => simp [esc, ih]

theorem esc_slash (t : Bytes) : 0x2f ∉ esc t := by
  induction t with
  | nil => simp [esc]
  | cons c t ih =>
    rw [esc]
    by_cases h1 : c = 0x7e
    · rw [if_pos h1]; simp [ih]
    · rw [if_neg h1]
      by_cases h2 : c = 0x2f
      · rw [if_pos h2]; simp [ih]
      · rw [if_neg h2]; simp [ih]; omega

theorem tildesOk_plain {d : Nat} (h : d ≠ 0x7e) (e : Bytes) : tildesOk (d :: e) = tildesOk e := by
  cases e <;> simp [tildesOk, h]

theorem tildesOk_iff : ∀ e : Bytes, 0x2f ∉ e → (tildesOk e = true ↔ ∃ t, e = esc t)
  | [], _ => ⟨fun _ => ⟨[], rfl⟩, fun _ => rfl⟩
  | [c], h => by
    rw [tildesOk]
    by_cases h1 : c = 0x7e
    · rw [if_pos h1]
      constructor
      · intro h; simp at h
      · rintro ⟨t, ht⟩
        cases t with
        | nil => simp [esc] at ht
        | cons d t =>
          rw [esc] at ht
          split at ht
          · simp at ht
          · split at ht
            · simp at ht
            · rename_i h3 _
              simp at ht
              omega
    · rw [if_neg h1]
      refine ⟨fun _ => ⟨[c], ?_⟩, fun _ => rfl⟩
      have : c ≠ 0x2f := by intro e; apply h; simp [e]
      simp [esc, h1, this]
  | c :: d :: e, h => by
    have hc : c ≠ 0x2f := by intro e; apply h; simp [e]
    have hd : 0x2f ∉ d :: e := fun h' => h (List.mem_cons_of_mem _ h')
    rw [tildesOk]
    by_cases h1 : c = 0x7e
    · have he : 0x2f ∉ e := fun h' => hd (List.mem_cons_of_mem _ h')
      rw [if_pos h1]
      simp only [Bool.and_eq_true, Bool.or_eq_true, beq_iff_eq]
      constructor
      · rintro ⟨hd', ht⟩
        have ht' : tildesOk e = true := by
          rw [tildesOk_plain (by omega)] at ht
          exact ht
        obtain ⟨t, rfl⟩ := (tildesOk_iff e he).mp ht'
        rcases hd' with hd' | hd'
        · exact ⟨0x7e :: t, by simp [esc, h1, hd']⟩
        · exact ⟨0x2f :: t, by simp [esc, h1, hd']⟩
      · rintro ⟨t, ht⟩
        cases t with
        | nil => simp [esc] at ht
        | cons a t =>
          rw [esc] at ht
          split at ht
          · simp only [List.cons.injEq] at ht
            refine ⟨.inl ht.2.1, ?_⟩
            rw [tildesOk_plain (by omega), tildesOk_iff e he]
            exact ⟨t, ht.2.2⟩
          · split at ht
            · simp only [List.cons.injEq] at ht
              refine ⟨.inr ht.2.1, ?_⟩
              rw [tildesOk_plain (by omega), tildesOk_iff e he]
              exact ⟨t, ht.2.2⟩
            · rename_i h3 _
              simp only [List.cons.injEq] at ht
              omega
    · rw [if_neg h1, tildesOk_iff (d :: e) hd]
      constructor
      · rintro ⟨t, ht⟩
        exact ⟨c :: t, by rw [esc, if_neg h1, if_neg hc, ht]⟩
      · rintro ⟨t, ht⟩
        cases t with
        | nil => simp [esc] at ht
        | cons a t =>
          rw [esc] at ht
          split at ht
          · simp only [List.cons.injEq] at ht; omega
          · split at ht
            · simp only [List.cons.injEq] at ht; omega
            · simp only [List.cons.injEq] at ht
              exact ⟨t, by rw [← ht.2]⟩

/-! ## Splitting -/

theorem ptrToString_cons (t : Bytes) (ts : List Bytes) :
    ptrToString (t :: ts) = 0x2f :: esc t ++ ptrToString ts := by
  have key : ∀ (ts : List Bytes) (a : Bytes),
      ts.foldl (fun a b => a ++ [0x2f] ++ escape b) a = a ++ ts.foldl (fun a b => a ++ [0x2f] ++ escape b) [] := by
    intro ts
    induction ts with
    | nil => simp
    | cons u ts ih =>
      intro a
      rw [List.foldl_cons, List.foldl_cons, ih, ih ([] ++ _ ++ _)]
      simp
  rw [ptrToString, List.foldl_cons, key, escape_eq]
  rfl

theorem ptrToString_nil : ptrToString [] = [] := rfl

theorem ptrToString_append (ts us : List Bytes) : ptrToString (ts ++ us) = ptrToString ts ++ ptrToString us := by
  induction ts with
  | nil => rfl
  | cons t ts ih => rw [List.cons_append, ptrToString_cons, ptrToString_cons, ih]; simp

theorem ptrToString_snoc (ts : List Bytes) (t : Bytes) :
    ptrToString (ts ++ [t]) = ptrToString ts ++ [0x2f] ++ escape t := by
  rw [ptrToString_append, ptrToString_cons, ptrToString_nil, escape_eq]
  simp

theorem splitLoop_plain (tok : Bytes) : ∀ (u s : Bytes), 0x2f ∉ u → splitLoop tok (u ++ s) = splitLoop (tok ++ u) s
  | [], s, _ => by simp
  | c :: u, s, h => by
    have h1 : c ≠ 0x2f := by intro e; apply h; simp [e]
    rw [List.cons_append, splitLoop, if_neg h1, splitLoop_plain _ u s (fun h' => h (List.mem_cons_of_mem _ h'))]
    simp

theorem split_cons (t s : Bytes) (ts : List Bytes) (hs : split s = .ok ts) :
    split (0x2f :: esc t ++ s) = .ok (t :: ts) := by
  have ht : tildesOk (esc t) = true := (tildesOk_iff _ (esc_slash t)).mpr ⟨t, rfl⟩
  rw [List.cons_append, split, if_pos rfl, splitLoop_plain _ _ _ (esc_slash t), List.nil_append]
  cases s with
  | nil =>
    rw [split] at hs
    cases hs
    rw [splitLoop, if_pos ht, unescape_esc]
  | cons c s =>
    rw [split] at hs
    by_cases hc : c = 0x2f
    · rw [if_pos hc] at hs
      rw [splitLoop, if_pos hc, if_pos ht, hs, unescape_esc]
    · rw [if_neg hc] at hs; cases hs

theorem split_ptrToString : ∀ ts : List Bytes, split (ptrToString ts) = .ok ts
  | [] => rfl
  | t :: ts => by rw [ptrToString_cons, split_cons t _ ts (split_ptrToString ts)]

theorem Spec.Pointer.eq_text {s : Bytes} {ts : List Bytes} (h : Pointer s ts) : s = ptrToString ts := by
  induction h with
  | root => rfl
  | step ht _ ih => rw [ptrToString_cons, ht.eq_esc, ih]

theorem pointer_text : ∀ ts : List Bytes, Pointer (ptrToString ts) ts
  | [] => .root
  | t :: ts => by rw [ptrToString_cons]; exact .step (token_esc t) (pointer_text ts)

theorem splitLoop_sound : ∀ (s tok : Bytes) (ts : List Bytes), 0x2f ∉ tok → splitLoop tok s = .ok ts →
    0x2f :: tok ++ s = ptrToString ts
  | [], tok, ts, hk, h => by
    rw [splitLoop] at h
    by_cases ht : tildesOk tok = true
    · rw [if_pos ht] at h
      cases h
      obtain ⟨t, rfl⟩ := (tildesOk_iff tok hk).mp ht
      rw [unescape_esc, ptrToString_cons, ptrToString_nil]
    · rw [if_neg ht] at h; cases h
  | c :: s, tok, ts, hk, h => by
    rw [splitLoop] at h
    by_cases hc : c = 0x2f
    · rw [if_pos hc] at h
      by_cases ht : tildesOk tok = true
      · rw [if_pos ht] at h
        cases hr : splitLoop [] s with
        | ok us =>
          rw [hr] at h
          cases h
          obtain ⟨t, rfl⟩ := (tildesOk_iff tok hk).mp ht
          have := splitLoop_sound s [] us (by simp) hr
          rw [unescape_esc, ptrToString_cons, ← this, hc]
          simp
        | _ => rw [hr] at h; cases h
      · rw [if_neg ht] at h; cases h
    · rw [if_neg hc] at h
      have := splitLoop_sound s (tok ++ [c]) ts (by simp [hk]; omega) h
      rw [← this]
      simp

theorem split_sound {s : Bytes} {ts : List Bytes} (h : split s = .ok ts) : s = ptrToString ts := by
  cases s with
  | nil => rw [split] at h; cases h; rfl
  | cons c s =>
    rw [split] at h
    by_cases hc : c = 0x2f
    · rw [if_pos hc] at h
      have := splitLoop_sound s [] ts (by simp) h
      rw [← this, hc]
      rfl
    · rw [if_neg hc] at h; cases h

theorem splitLoop_total : ∀ (s tok : Bytes), (∃ ts, splitLoop tok s = .ok ts) ∨ splitLoop tok s = .throws "parse_error.108"
  | [], tok => by
    rw [splitLoop]
    by_cases ht : tildesOk tok = true
    · rw [if_pos ht]; exact .inl ⟨_, rfl⟩
    · rw [if_neg ht]; exact .inr rfl
  | c :: s, tok => by
    rw [splitLoop]
    by_cases hc : c = 0x2f
    · rw [if_pos hc]
      by_cases ht : tildesOk tok = true
      · rw [if_pos ht]
        rcases splitLoop_total s [] with ⟨ts, h⟩ | h
        · rw [h]; exact .inl ⟨_, rfl⟩
        · rw [h]; exact .inr rfl
      · rw [if_neg ht]; exact .inr rfl
    · rw [if_neg hc]; exact splitLoop_total s _

/-! ## Array indices -/

theorem toStr_eq (n : Nat) : toStr n = digits n := by
  induction n using Nat.strongRecOn with
  | _ n ih =>
    rw [toStr, digits]
    by_cases h : n < 10
    · rw [if_pos h, if_pos h]
    · rw [if_neg h, if_neg h, ih (n / 10) (by omega)]

theorem decVal_snoc (ds : Bytes) (d : Nat) : decVal (ds ++ [d]) = decVal ds * 10 + (d - 0x30) := by
  simp [decVal]

theorem decVal_eq (ds : Bytes) : decVal ds = decimal ds := by
  induction ds using List.reverseRecOn with
  | nil => rfl
  | append_singleton ds d ih => rw [decVal_snoc, decimal_snoc, ih]

end Verif.Json
