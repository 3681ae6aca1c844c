import Verif.Png.Image

/-! # Interlaced pictures -/

namespace Verif.Png

/-- the passes of the specification and of the code -/
def PassIs (p : Nat) (t : Nat × Nat × Nat × Nat) : Prop :=
  t.1 < t.2.2.1 ∧ t.2.1 < t.2.2.2 ∧ (t.2.2.1 = 1 ∨ t.2.2.1 = 2 ∨ t.2.2.1 = 4 ∨ t.2.2.1 = 8) ∧
    (t.2.2.2 = 1 ∨ t.2.2.2 = 2 ∨ t.2.2.2 = 4 ∨ t.2.2.2 = 8) ∧
    (∀ X, ((List.range 8).any fun Y => passOf X Y == p) = decide (X % t.2.2.1 = t.1)) ∧
    (∀ Y, ((List.range 8).any fun X => passOf X Y == p) = decide (Y % t.2.2.2 = t.2.1)) ∧
    (∀ X Y, X % t.2.2.1 = t.1 → Y % t.2.2.2 = t.2.1 → passOf X Y = p)

theorem passOf_mod (X Y : Nat) : passOf X Y = passOf (X % 8) (Y % 8) := by simp [passOf]

theorem passIs_of {p : Nat} {t : Nat × Nat × Nat × Nat} (h1 : t.1 < t.2.2.1) (h2 : t.2.1 < t.2.2.2)
    (h3 : t.2.2.1 = 1 ∨ t.2.2.1 = 2 ∨ t.2.2.1 = 4 ∨ t.2.2.1 = 8) (h4 : t.2.2.2 = 1 ∨ t.2.2.2 = 2 ∨ t.2.2.2 = 4 ∨ t.2.2.2 = 8)
    (h5 : ∀ X < 8, ((List.range 8).any fun Y => passOf X Y == p) = decide (X % t.2.2.1 = t.1))
    (h6 : ∀ Y < 8, ((List.range 8).any fun X => passOf X Y == p) = decide (Y % t.2.2.2 = t.2.1))
    (h7 : ∀ X < 8, ∀ Y < 8, X % t.2.2.1 = t.1 → Y % t.2.2.2 = t.2.1 → passOf X Y = p) : PassIs p t := by
  have m1 : ∀ X, X % 8 % t.2.2.1 = X % t.2.2.1 := fun X => by rcases h3 with h | h | h | h <;> rw [h] <;> omega
  have m2 : ∀ Y, Y % 8 % t.2.2.2 = Y % t.2.2.2 := fun Y => by rcases h4 with h | h | h | h <;> rw [h] <;> omega
  refine ⟨h1, h2, h3, h4, fun X => ?_, fun Y => ?_, fun X Y hX hY => ?_⟩
  rotate_left 2
  · rw [passOf_mod]
    exact h7 _ (Nat.mod_lt _ (by decide)) _ (Nat.mod_lt _ (by decide)) ((m1 X).trans hX) ((m2 Y).trans hY)
  · have e : ∀ Y, passOf X Y = passOf (X % 8) Y := fun Y => by simp [passOf]
    simp only [e]
    rw [h5 _ (Nat.mod_lt _ (by decide)), m1]
  · have e : ∀ X, passOf X Y = passOf X (Y % 8) := fun X => by simp [passOf]
    simp only [e]
    rw [h6 _ (Nat.mod_lt _ (by decide)), m2]

theorem passes_are : List.Forall₂ PassIs [1, 2, 3, 4, 5, 6, 7] adam7 := by
  rw [adam7]
  repeat' first
    | exact List.Forall₂.nil
    | apply List.Forall₂.cons
  all_goals exact passIs_of (by decide) (by decide) (by decide) (by decide) (by decide) (by decide) (by decide)

theorem filter_mod {spc orig : Nat} (h : orig < spc) (hs : spc = 1 ∨ spc = 2 ∨ spc = 4 ∨ spc = 8) :
    ∀ W, (List.range W).filter (fun X => decide (X % spc = orig)) =
      (List.range ((W + spc - 1 - orig) / spc)).map (fun i => i * spc + orig)
  | 0 => by rw [Nat.div_eq_of_lt (by omega)]; rfl
  | W + 1 => by
    rw [List.range_succ, List.filter_append, filter_mod h hs W]
    by_cases hw : W % spc = orig
    · have e : (W + 1 + spc - 1 - orig) / spc = (W + spc - 1 - orig) / spc + 1 := by
        rcases hs with rfl | rfl | rfl | rfl <;> omega
      have e2 : W = (W + spc - 1 - orig) / spc * spc + orig := by
        rcases hs with rfl | rfl | rfl | rfl <;> omega
      rw [e, List.range_succ, List.map_append, List.filter_cons_of_pos (by simpa using hw)]
      simp only [List.filter_nil, List.map_cons, List.map_nil, ← e2]
    · have e : (W + 1 + spc - 1 - orig) / spc = (W + spc - 1 - orig) / spc := by
        rcases hs with rfl | rfl | rfl | rfl <;> omega
      rw [e, List.filter_cons_of_neg (by simpa using hw)]
      simp

theorem passSize_eq {size orig spc : Nat} (h1 : 0 < size) (h2 : size ≤ 2 ^ 24) (h : orig < spc)
    (hs : spc = 1 ∨ spc = 2 ∨ spc = 4 ∨ spc = 8) : passSize size orig spc = (size + spc - 1 - orig) / spc := by
  rw [passSize, show (size + 2 ^ 32 - orig + spc - 1) % 2 ^ 32 = size + spc - 1 - orig by omega]

theorem columns_eq {p W : Nat} {t : Nat × Nat × Nat × Nat} (h : PassIs p t) (h1 : 0 < W) (h2 : W ≤ 2 ^ 24) :
    columns p W = (List.range (passSize W t.1 t.2.2.1)).map (fun i => i * t.2.2.1 + t.1) := by
  rw [columns, passSize_eq h1 h2 h.1 h.2.2.1, ← filter_mod h.1 h.2.2.1]
  congr 1
  funext X
  exact h.2.2.2.2.1 X

theorem lines_eq {p H : Nat} {t : Nat × Nat × Nat × Nat} (h : PassIs p t) (h1 : 0 < H) (h2 : H ≤ 2 ^ 24) :
    lines p H = (List.range (passSize H t.2.1 t.2.2.2)).map (fun i => i * t.2.2.2 + t.2.1) := by
  rw [lines, passSize_eq h1 h2 h.2.1 h.2.2.2.1, ← filter_mod h.2.1 h.2.2.2.1]
  congr 1
  funext Y
  exact h.2.2.2.2.2.1 Y

/-- the columns of a pass are in the picture -/
theorem column_lt {i W orig spc : Nat} (h1 : 0 < W) (h2 : W ≤ 2 ^ 24) (h : orig < spc)
    (hs : spc = 1 ∨ spc = 2 ∨ spc = 4 ∨ spc = 8) (hi : i < passSize W orig spc) : i * spc + orig < W := by
  rw [passSize_eq h1 h2 h hs] at hi
  rcases hs with rfl | rfl | rfl | rfl <;> omega

theorem passSize_le {W orig spc : Nat} (h1 : 0 < W) (h2 : W ≤ 2 ^ 24) (h : orig < spc)
    (hs : spc = 1 ∨ spc = 2 ∨ spc = 4 ∨ spc = 8) : passSize W orig spc ≤ W := by
  rw [passSize_eq h1 h2 h hs]
  rcases hs with rfl | rfl | rfl | rfl <;> omega

theorem copyTo_ok {src m0 : Buf} {a b n : Nat} (hs : a + n ≤ src.size) (hd : b + n ≤ m0.size) :
    ∃ m, copyTo src m0 a b n = .ok m ∧ m.size = m0.size ∧ (∀ k < n, m.at_ (b + k) = src.at_ (a + k)) ∧
      ∀ i, i < b ∨ b + n ≤ i → m.at_ i = m0.at_ i := by
  obtain ⟨m, h1, h2, h3, h4⟩ := loop_inv (s := m0) (n := n)
    (f := fun k m => if a + k < src.size then put m (b + k) (src.at_ (a + k)) else .ub)
    (fun k m => m.size = m0.size ∧ (∀ i < k, m.at_ (b + i) = src.at_ (a + i)) ∧ ∀ i, i < b ∨ b + n ≤ i → m.at_ i = m0.at_ i)
    ⟨rfl, fun i hi => by omega, fun _ _ => rfl⟩ (by
      intro k hk m ⟨h1, h2, h3⟩
      obtain ⟨m', e1, e2, e3, e4⟩ := put_ok (m := m) (i := b + k) (src.at_ (a + k)) (by omega)
      refine ⟨m', by rw [if_pos (by omega), e1], e2.trans h1, fun i hi => ?_, fun i hi => by rw [e4 _ (by omega), h3 i hi]⟩
      by_cases hik : i = k
      · rw [hik]; exact e3
      · rw [e4 _ (by omega), h2 i (by omega)])
  exact ⟨m, h1, h2, h3, h4⟩

/-- the pixels of a pass are put where they belong -/
theorem spread_ok {out m0 : Buf} {px py W H ob ox oy sx sy : Nat} (hsrc : px * py * ob ≤ out.size) (hdst : W * H * ob ≤ m0.size)
    (hx : ∀ i < px, i * sx + ox < W) (hy : ∀ j < py, j * sy + oy < H) (hsx : 0 < sx) (hsy : 0 < sy) :
    ∃ m, loop py (fun j m => loop px (fun i m =>
        copyTo out m ((j * px + i) * ob) ((j * sy + oy) * W * ob + (i * sx + ox) * ob) ob) m) m0 = .ok m ∧ m.size = m0.size ∧
      (∀ j < py, ∀ i < px, ∀ b < ob, m.at_ (((j * sy + oy) * W + (i * sx + ox)) * ob + b) = out.at_ ((j * px + i) * ob + b)) ∧
      ∀ Y < H, ∀ X < W, (∀ j < py, ∀ i < px, Y ≠ j * sy + oy ∨ X ≠ i * sx + ox) →
        ∀ b < ob, m.at_ ((Y * W + X) * ob + b) = m0.at_ ((Y * W + X) * ob + b) := by
  -- different pixels do not overlap
  have hsep : ∀ P Q b, P ≠ Q → b < ob → P * ob + b < Q * ob ∨ Q * ob + ob ≤ P * ob + b := by
    intro P Q b hne hb
    rcases Nat.lt_or_gt_of_ne hne with h | h
    · have : P * ob + ob ≤ Q * ob := by rw [← Nat.succ_mul]; exact Nat.mul_le_mul_right _ h
      omega
    · have : Q * ob + ob ≤ P * ob := by rw [← Nat.succ_mul]; exact Nat.mul_le_mul_right _ h
      omega
  have hinj : ∀ Y X Y' X', X < W → X' < W → (Y ≠ Y' ∨ X ≠ X') → Y * W + X ≠ Y' * W + X' := by
    intro Y X Y' X' h h' hne he
    have hW : 0 < W := by omega
    have e1 : Y = Y' := by
      have := congrArg (· / W) he
      simp only [Nat.mul_comm _ W, Nat.mul_add_div hW, Nat.div_eq_of_lt h, Nat.div_eq_of_lt h'] at this
      omega
    subst e1
    rcases hne with h | h
    · exact h rfl
    · omega
  have hpos : ∀ Y X, Y < H → X < W → (Y * W + X) * ob + ob ≤ W * H * ob := fun Y X hY hX => by
    rw [← Nat.succ_mul]
    refine Nat.mul_le_mul_right _ ?_
    have := lt_of_row (stride := W) hY
    rw [Nat.mul_comm Y W, Nat.succ_eq_add_one]
    omega
  have hsrcp : ∀ j < py, ∀ i < px, (j * px + i) * ob + ob ≤ out.size := fun j hj i hi => by
    refine Nat.le_trans ?_ hsrc
    rw [← Nat.succ_mul]
    refine Nat.mul_le_mul_right _ ?_
    have := lt_of_row (stride := px) hj
    rw [Nat.mul_comm j px, Nat.succ_eq_add_one]
    omega
  obtain ⟨m, h1, h2, h3, h4⟩ := loop_inv (s := m0) (n := py)
    (f := fun j m => loop px (fun i m =>
        copyTo out m ((j * px + i) * ob) ((j * sy + oy) * W * ob + (i * sx + ox) * ob) ob) m)
    (fun J m => m.size = m0.size ∧
      (∀ j < J, ∀ i < px, ∀ b < ob, m.at_ (((j * sy + oy) * W + (i * sx + ox)) * ob + b) = out.at_ ((j * px + i) * ob + b)) ∧
      ∀ Y < H, ∀ X < W, (∀ j < J, ∀ i < px, Y ≠ j * sy + oy ∨ X ≠ i * sx + ox) →
        ∀ b < ob, m.at_ ((Y * W + X) * ob + b) = m0.at_ ((Y * W + X) * ob + b))
    ⟨rfl, fun j hj => by omega, fun _ _ _ _ _ _ _ => rfl⟩ (by
      intro J hJ m ⟨h1, h2, h3⟩
      obtain ⟨m', g1, g2, g3, g4, g5⟩ := loop_inv (s := m) (n := px)
        (f := fun i m => copyTo out m ((J * px + i) * ob) ((J * sy + oy) * W * ob + (i * sx + ox) * ob) ob)
        (fun I m => m.size = m0.size ∧
          (∀ j < J, ∀ i < px, ∀ b < ob, m.at_ (((j * sy + oy) * W + (i * sx + ox)) * ob + b) = out.at_ ((j * px + i) * ob + b)) ∧
          (∀ i < I, ∀ b < ob, m.at_ (((J * sy + oy) * W + (i * sx + ox)) * ob + b) = out.at_ ((J * px + i) * ob + b)) ∧
          ∀ Y < H, ∀ X < W, (∀ j < J, ∀ i < px, Y ≠ j * sy + oy ∨ X ≠ i * sx + ox) → (∀ i < I, Y ≠ J * sy + oy ∨ X ≠ i * sx + ox) →
            ∀ b < ob, m.at_ ((Y * W + X) * ob + b) = m0.at_ ((Y * W + X) * ob + b))
        ⟨h1, h2, fun i hi => by omega, fun Y hY X hX hne _ => h3 Y hY X hX hne⟩ (by
          intro I hI m ⟨k1, k2, k3, k4⟩
          have hY := hy J hJ
          have hX := hx I hI
          have hat : (J * sy + oy) * W * ob + (I * sx + ox) * ob = ((J * sy + oy) * W + (I * sx + ox)) * ob := by ring
          obtain ⟨m', e1, e2, e3, e4⟩ := copyTo_ok (src := out) (m0 := m) (a := (J * px + I) * ob)
            (b := ((J * sy + oy) * W + (I * sx + ox)) * ob) (n := ob) (hsrcp J hJ I hI)
            (by rw [k1]; exact Nat.le_trans (hpos _ _ hY hX) hdst)
          refine ⟨m', by rw [hat]; exact e1, e2.trans k1, fun j hj i hi b hb => ?_, fun i hi b hb => ?_, fun Y hY' X hX' hne hne' b hb => ?_⟩
          · have hdiff : j * sy + oy ≠ J * sy + oy := by
              have : j * sy < J * sy := Nat.mul_lt_mul_of_pos_right hj hsy
              omega
            rw [e4 _ (hsep _ _ b (hinj _ _ _ _ (hx i hi) hX (.inl hdiff)) hb)]
            exact k2 j hj i hi b hb
          · by_cases hiI : i = I
            · rw [hiI]; exact e3 b hb
            · have hdiff : i * sx + ox ≠ I * sx + ox := by
                have : i * sx < I * sx := Nat.mul_lt_mul_of_pos_right (by omega) hsx
                omega
              rw [e4 _ (hsep _ _ b (hinj _ _ _ _ (hx i (by omega)) hX (.inr hdiff)) hb)]
              exact k3 i (by omega) b hb
          · rw [e4 _ (hsep _ _ b (hinj _ _ _ _ hX' hX (hne' I (by omega))) hb)]
            exact k4 Y hY' X hX' hne (fun i hi => hne' i (by omega)) b hb)
      refine ⟨m', g1, g2, fun j hj i hi b hb => ?_, fun Y hY X hX hne b hb => ?_⟩
      · by_cases hjJ : j = J
        · rw [hjJ]; exact g4 i hi b hb
        · exact g3 j (by omega) i hi b hb
      · exact g5 Y hY X hX (fun j hj => hne j (by omega)) (fun i hi => hne J (by omega) i hi) b hb)
  exact ⟨m, h1, h2, h3, h4⟩

end Verif.Png
