import Verif.Macros.Model

/-!
# C84: the error macros used as statements
-/

namespace Verif.Macros

/-- what the program as written should do: a macro is one statement -/
def Src.meaning (v thr : Nat → Bool) : Src → List Nat × Bool
  | .act a => ([a], thr a)
  | .throwM a => ([a], thr a)
  | .assertM c a => if v c then ([], false) else ([a], thr a)
  | .warnM a => ([a], thr a)
  | .block b => b.meaning v thr
  | .ifThen c s => if v c then s.meaning v thr else ([], false)
  | .ifElse c s t => if v c then s.meaning v thr else t.meaning v thr
  | .nil => ([], false)
  | .cons s b =>
    let r := s.meaning v thr
    if r.2 then r else (r.1 ++ (b.meaning v thr).1, (b.meaning v thr).2)

/-- a statement that could still take an `else` -/
def Src.isOpen : Src → Bool
  | .assertM _ _ => true
  | .ifThen _ _ => true
  | .ifElse _ _ t => t.isOpen
  | _ => false

/-- a statement that ends in a warning -/
def Src.warns : Src → Bool
  | .warnM _ => true
  | .ifThen _ s => s.warns
  | .ifElse _ _ t => t.warns
  | _ => false

/-- a statement and not the contents of a block -/
def Src.isStmt : Src → Bool
  | .nil => false
  | .cons _ _ => false
  | _ => true

/-- a program in the syntax of the language, in which no assertion, warning or `if` without
`else` stands directly before an `else` -/
def Src.fine : Src → Bool
  | .block b => !b.isStmt && b.fine
  | .ifThen _ s => s.isStmt && s.fine
  | .ifElse _ s t => s.isStmt && t.isStmt && s.fine && t.fine && !s.isOpen && !s.warns
  | .cons s b => s.isStmt && s.fine && !b.isStmt && b.fine
  | _ => true

/-- the tree the compiler makes -/
def Src.tree : Src → Stmt
  | .act a => .act a
  | .throwM a => .act a
  | .assertM c a => .ifThen ⟨true, c⟩ (.act a)
  | .warnM a => .act a
  | .block b => .block b.tree
  | .ifThen c s => .ifThen ⟨false, c⟩ s.tree
  | .ifElse c s t => .ifElse ⟨false, c⟩ s.tree t.tree
  | .nil => .nil
  | .cons s b => .cons s.tree (if s.warns then .cons .empty b.tree else b.tree)

/-- number of nodes -/
def Src.size : Src → Nat
  | .block b => b.size + 1
  | .ifThen _ s => s.size + 1
  | .ifElse _ s t => s.size + t.size + 1
  | .cons s b => s.size + b.size + 2
  | _ => 2

/-- the tokens without the stray semicolon at the end -/
def Src.core : Src → List Tok
  | .act a => [.act a, .semi]
  | .throwM a => [.act a, .semi]
  | .assertM c a => [.ifT ⟨true, c⟩, .act a, .semi]
  | .warnM a => [.act a, .semi]
  | .block b => .lbrace :: (b.expand ++ [.rbrace])
  | .ifThen c s => .ifT ⟨false, c⟩ :: s.core
  | .ifElse c s t => .ifT ⟨false, c⟩ :: (s.expand ++ .elseT :: t.core)
  | .nil => []
  | .cons _ _ => []

theorem expand_core (s : Src) (h : s.isStmt = true) (hf : s.fine = true) :
    s.expand = s.core ++ if s.warns then [.semi] else [] := by
  induction s with
  | act a => rfl
  | throwM a => rfl
  | assertM c a => rfl
  | warnM a => rfl
  | block b _ => simp [Src.expand, Src.core, Src.warns]
  | ifThen c s ih =>
    simp only [Src.fine, Bool.and_eq_true] at hf
    simp only [Src.expand, Src.core, Src.warns, ih hf.1 hf.2, List.cons_append]
    rfl
  | ifElse c s t _ iht =>
    simp only [Src.fine, Bool.and_eq_true] at hf
    simp only [Src.expand, Src.core, Src.warns, iht hf.1.1.1.1.2 hf.1.1.2, List.cons_append, List.append_assoc]
    rfl
  | nil => cases h
  | cons s b _ _ => cases h

/-- the rest of the text does not begin with `else` -/
def NotElse (r : List Tok) : Prop := ∀ r', r ≠ .elseT :: r'

/-- the end of a block or of the program -/
def AtEnd (r : List Tok) : Prop := r = [] ∨ ∃ r', r = .rbrace :: r'

theorem parse_if_then (n : Nat) (c : Cond) (ts r : List Tok) (s : Stmt) (h : parse n true ts = some (s, r)) (hr : NotElse r) :
    parse (n + 1) true (.ifT c :: ts) = some (.ifThen c s, r) := by
  rw [parse, h]
  cases r with
  | nil => rfl
  | cons x r =>
    cases x with
    | elseT => exact absurd rfl (hr r)
    | _ => rfl

theorem parse_if_else (n : Nat) (c : Cond) (ts r r' : List Tok) (s t : Stmt) (h : parse n true ts = some (s, .elseT :: r))
    (h' : parse n true r = some (t, r')) : parse (n + 1) true (.ifT c :: ts) = some (.ifElse c s t, r') := by
  rw [parse, h]
  simp only [h']

theorem parse_cons (n : Nat) (ts r r' : List Tok) (s b : Stmt) (hne : ¬ AtEnd ts) (h : parse n true ts = some (s, r))
    (h' : parse n false r = some (b, r')) : parse (n + 1) false ts = some (.cons s b, r') := by
  cases ts with
  | nil => exact absurd (Or.inl rfl) hne
  | cons x ts =>
    cases x with
    | rbrace => exact absurd (Or.inr ⟨ts, rfl⟩) hne
    | _ => rw [parse, h]; simp only [h']; all_goals simp

theorem parse_nil (n : Nat) (r : List Tok) (h : AtEnd r) : parse (n + 1) false r = some (.nil, r) := by
  rcases h with rfl | ⟨r', rfl⟩ <;> rfl

theorem core_start (s : Src) (h : s.isStmt = true) (r : List Tok) : ¬ AtEnd (s.core ++ r) ∧ NotElse (s.core ++ r) := by
  constructor
  · rintro (e | ⟨r', e⟩) <;> cases s <;> first | (cases h; done) | (simp [Src.core] at e)
  · intro r' e
    cases s <;> first | (cases h; done) | (simp [Src.core] at e)

theorem expand_block_start (b : Src) (h : b.isStmt = false) (hf : b.fine = true) (r : List Tok) (hr : AtEnd r) :
    NotElse (b.expand ++ r) := by
  cases b with
  | nil =>
    intro r' e
    rcases hr with rfl | ⟨r'', rfl⟩ <;> cases e
  | cons s b =>
    simp only [Src.fine, Bool.and_eq_true] at hf
    intro r' e
    rw [Src.expand, expand_core s hf.1.1.1 hf.1.1.2, List.append_assoc, List.append_assoc] at e
    exact (core_start s hf.1.1.1 _).2 r' e
  | _ => cases h

theorem parse_fine (s : Src) : s.fine = true →
    (s.isStmt = true → ∀ n r, s.size ≤ n → (s.isOpen = true → NotElse r) → parse n true (s.core ++ r) = some (s.tree, r)) ∧
    (s.isStmt = false → ∀ n r, s.size ≤ n → AtEnd r → parse n false (s.expand ++ r) = some (s.tree, r)) := by
  induction s with
  | act a =>
    intro _
    refine ⟨fun _ n r hn _ => ?_, fun h => by cases h⟩
    obtain ⟨n, rfl⟩ : ∃ m, n = m + 1 := ⟨n - 1, by simp [Src.size] at hn; omega⟩
    rfl
  | throwM a =>
    intro _
    refine ⟨fun _ n r hn _ => ?_, fun h => by cases h⟩
    obtain ⟨n, rfl⟩ : ∃ m, n = m + 1 := ⟨n - 1, by simp [Src.size] at hn; omega⟩
    rfl
  | warnM a =>
    intro _
    refine ⟨fun _ n r hn _ => ?_, fun h => by cases h⟩
    obtain ⟨n, rfl⟩ : ∃ m, n = m + 1 := ⟨n - 1, by simp [Src.size] at hn; omega⟩
    rfl
  | assertM c a =>
    intro _
    refine ⟨fun _ n r hn ho => ?_, fun h => by cases h⟩
    obtain ⟨n, rfl⟩ : ∃ m, n = m + 2 := ⟨n - 2, by simp [Src.size] at hn; omega⟩
    exact parse_if_then (n + 1) ⟨true, c⟩ (.act a :: .semi :: r) r (.act a) rfl (ho rfl)
  | block b ih =>
    intro hf
    simp only [Src.fine, Bool.and_eq_true, Bool.not_eq_true'] at hf
    refine ⟨fun _ n r hn _ => ?_, fun h => by cases h⟩
    obtain ⟨n, rfl⟩ : ∃ m, n = m + 1 := ⟨n - 1, by simp [Src.size] at hn; omega⟩
    have := (ih hf.2).2 hf.1 n (.rbrace :: r) (by simp [Src.size] at hn; omega) (Or.inr ⟨r, rfl⟩)
    rw [Src.core, List.cons_append, List.append_assoc, List.singleton_append, parse, this]
    rfl
  | ifThen c s ih =>
    intro hf
    simp only [Src.fine, Bool.and_eq_true] at hf
    refine ⟨fun _ n r hn ho => ?_, fun h => by cases h⟩
    obtain ⟨n, rfl⟩ : ∃ m, n = m + 1 := ⟨n - 1, by simp [Src.size] at hn; omega⟩
    exact parse_if_then n ⟨false, c⟩ _ r s.tree
      ((ih hf.2).1 hf.1 n r (by simp [Src.size] at hn; omega) (fun _ => ho rfl)) (ho rfl)
  | ifElse c s t ihs iht =>
    intro hf
    simp only [Src.fine, Bool.and_eq_true, Bool.not_eq_true'] at hf
    obtain ⟨⟨⟨⟨⟨hs, ht⟩, hfs⟩, hft⟩, hop⟩, hw⟩ := hf
    refine ⟨fun _ n r hn ho => ?_, fun h => by cases h⟩
    obtain ⟨n, rfl⟩ : ∃ m, n = m + 1 := ⟨n - 1, by simp [Src.size] at hn; omega⟩
    have h1 := (ihs hfs).1 hs n (.elseT :: (t.core ++ r)) (by simp [Src.size] at hn; omega)
      (fun h => by rw [hop] at h; cases h)
    have h2 := (iht hft).1 ht n r (by simp [Src.size] at hn; omega) ho
    have := parse_if_else n ⟨false, c⟩ _ _ _ _ _ h1 h2
    rw [Src.core, expand_core s hs hfs, hw, Src.tree]
    simpa using this
  | nil =>
    intro _
    refine ⟨(fun h => by cases h), fun _ n r hn hr => ?_⟩
    obtain ⟨n, rfl⟩ : ∃ m, n = m + 1 := ⟨n - 1, by simp [Src.size] at hn; omega⟩
    exact parse_nil n r hr
  | cons s b ihs ihb =>
    intro hf
    simp only [Src.fine, Bool.and_eq_true, Bool.not_eq_true'] at hf
    obtain ⟨⟨⟨hs, hfs⟩, hb⟩, hfb⟩ := hf
    refine ⟨(fun h => by cases h), fun _ n r hn hr => ?_⟩
    have hn' : s.size + b.size + 2 ≤ n := hn
    rw [Src.expand, expand_core s hs hfs, List.append_assoc, List.append_assoc, Src.tree]
    by_cases hw : s.warns = true
    · obtain ⟨n, rfl⟩ : ∃ m, n = m + 2 := ⟨n - 2, by omega⟩
      rw [if_pos hw, if_pos hw, List.singleton_append]
      refine parse_cons (n + 1) _ _ r _ _ (core_start s hs _).1
        ((ihs hfs).1 hs (n + 1) (.semi :: (b.expand ++ r)) (by omega) (fun _ => by intro r' e; cases e)) ?_
      have hsz : 1 ≤ s.size := by cases s <;> simp [Src.size]
      obtain ⟨n, rfl⟩ : ∃ m, n = m + 1 := ⟨n - 1, by omega⟩
      exact parse_cons (n + 1) (.semi :: (b.expand ++ r)) (b.expand ++ r) r .empty b.tree
        (by rintro (e | ⟨r', e⟩) <;> cases e) rfl ((ihb hfb).2 hb (n + 1) r (by omega) hr)
    · obtain ⟨n, rfl⟩ : ∃ m, n = m + 1 := ⟨n - 1, by omega⟩
      rw [if_neg hw, if_neg hw, List.nil_append]
      exact parse_cons n _ _ r _ _ (core_start s hs _).1
        ((ihs hfs).1 hs n (b.expand ++ r) (by omega) (fun _ => expand_block_start b hb hfb r hr))
        ((ihb hfb).2 hb n r (by omega) hr)

theorem tree_run (v thr : Nat → Bool) (s : Src) : s.tree.run v thr = s.meaning v thr := by
  induction s with
  | act a => rfl
  | throwM a => rfl
  | warnM a => rfl
  | assertM c a => simp only [Src.tree, Stmt.run, Src.meaning]; cases v c <;> rfl
  | block b ih => exact ih
  | ifThen c s ih => simp only [Src.tree, Stmt.run, Src.meaning, ih]; cases v c <;> rfl
  | ifElse c s t ihs iht => simp only [Src.tree, Stmt.run, Src.meaning, ihs, iht]; cases v c <;> rfl
  | nil => rfl
  | cons s b ihs ihb =>
    simp only [Src.tree, Stmt.run, Src.meaning, ihs]
    split
    · rfl
    · split
      · simp [Stmt.run, ihb]
      · rw [ihb]

/-- **C84** as far as it holds: a program in which no `assert_true`, no `short_warning` (and no
`if` without `else`) stands directly before an `else` is read by the compiler and does what
is written, each macro acting as one statement; in particular the `THROW_...` macros are
statements anywhere.  (Missing: see the two theorems below.) -/
theorem C84_statements_partial (p : Src) (hb : p.isStmt = false) (hf : p.fine = true) (n : Nat) (hn : p.size ≤ n) :
    ∃ t, parse n false p.expand = some (t, []) ∧ ∀ v thr, t.run v thr = p.meaning v thr := by
  refine ⟨p.tree, ?_, fun v thr => tree_run v thr p⟩
  have := (parse_fine p hf).2 hb n [] hn (Or.inl rfl)
  rwa [List.append_nil] at this

/-- **C84 fails** for `if (a) assert_true(c, msg); else s;`: the `else` is taken by the `if`
inside the macro.  The `else` part runs when it should not (both conditions true) and does
not run when it should (`a` false), and nothing warns of it. -/
theorem C84_dangling_else_fails (a c m s n : Nat) (v thr : Nat → Bool) :
    ∃ t, parse (n + 4) false (Src.cons (.ifElse a (.assertM c m) (.act s)) .nil).expand = some (t, []) ∧
      (v a = true → v c = true → (t.run v thr).1 = [s] ∧
        ((Src.cons (.ifElse a (.assertM c m) (.act s)) .nil).meaning v thr).1 = []) ∧
      (v a = false → (t.run v thr).1 = [] ∧
        ((Src.cons (.ifElse a (.assertM c m) (.act s)) .nil).meaning v thr).1 = [s]) := by
  refine ⟨_, rfl, fun h1 h2 => ?_, fun h1 => ?_⟩
  · simp [Stmt.run, Src.meaning, h1, h2]
    cases thr s <;> simp
  · simp [Stmt.run, Src.meaning, h1]
    cases thr s <;> simp

/-- **C84 fails** for `if (a) short_warning(msg); else s;`: it is not a C++ program. -/
theorem C84_warning_else_fails (a m s n : Nat) :
    parse n false (Src.cons (.ifElse a (.warnM m) (.act s)) .nil).expand = none := by
  have h : (Src.cons (.ifElse a (.warnM m) (.act s)) .nil).expand =
      [.ifT ⟨false, a⟩, .act m, .semi, .semi, .elseT, .act s, .semi] := rfl
  rw [h]
  match n with
  | 0 => rfl
  | 1 => rfl
  | 2 => rfl
  | 3 => rfl
  | n + 4 => rfl

/-- a loop body: `{ if (a) THROW(1); else { assert_true(b, ..); } short_warning(..); s; }` -/
example : (Src.cons (.block (.cons (.ifElse 0 (.throwM 1) (.block (.cons (.assertM 1 2) .nil)))
    (.cons (.warnM 3) (.cons (.act 4) .nil)))) .nil).fine = true := by decide

/-- it means what it says (`C84_statements_partial`) -/
example : ∃ t, parse 100 false (Src.cons (.block (.cons (.ifElse 0 (.throwM 1) (.block (.cons (.assertM 1 2) .nil)))
    (.cons (.warnM 3) (.cons (.act 4) .nil)))) .nil).expand = some (t, []) := by
  obtain ⟨t, h, -⟩ := C84_statements_partial (Src.cons (.block (.cons (.ifElse 0 (.throwM 1)
    (.block (.cons (.assertM 1 2) .nil))) (.cons (.warnM 3) (.cons (.act 4) .nil)))) .nil) rfl (by decide) 100 (by decide)
  exact ⟨t, h⟩

end Verif.Macros
