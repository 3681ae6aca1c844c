import Verif.Png.FileModel
import Verif.Png.Inter

/-! # Reading a file piece by piece is reading its bytes -/

namespace Verif.Png

/-- what is left of the file -/
def Src.all (s : Src) : List UInt8 := s.buf ++ s.rest

theorem start_all (file : List UInt8) : (start file).all = file := List.take_append_drop 128 file

theorem get8_all {s : Src} {b : UInt8} {r : List UInt8} (h : s.all = b :: r) : (get8 s).1 = b ∧ (get8 s).2.all = r := by
  obtain ⟨buf, rest⟩ := s
  cases buf with
  | cons a as =>
    simp only [Src.all, List.cons_append, List.cons.injEq] at h
    exact ⟨h.1, h.2⟩
  | nil =>
    simp only [Src.all, List.nil_append] at h
    subst h
    simp only [get8, Src.all, List.take_succ_cons, List.drop_succ_cons, true_and]
    exact List.take_append_drop 127 r

/-- behind the end there are zeros -/
theorem get8_end {s : Src} (h : s.all = []) : get8 s = (0, s) := by
  obtain ⟨buf, rest⟩ := s
  simp only [Src.all, List.append_eq_nil_iff] at h
  obtain ⟨rfl, rfl⟩ := h
  rfl

theorem get16_all {s : Src} {a b : UInt8} {r : List UInt8} (h : s.all = a :: b :: r) :
    (get16 s).1 = a.toNat * 256 + b.toNat ∧ (get16 s).2.all = r := by
  have h1 := get8_all h
  have h2 := get8_all h1.2
  simp only [get16]
  exact ⟨by rw [h1.1, h2.1], h2.2⟩

theorem get32_all {s : Src} {a b c d : UInt8} {r : List UInt8} (h : s.all = a :: b :: c :: d :: r) :
    (get32 s).1 = (a.toNat * 256 + b.toNat) * 65536 + (c.toNat * 256 + d.toNat) ∧ (get32 s).2.all = r := by
  have h1 := get16_all h
  have h2 := get16_all h1.2
  simp only [get32]
  exact ⟨by rw [h1.1, h2.1], h2.2⟩

theorem skip_all {s : Src} {d r : List UInt8} (h : s.all = d ++ r) (hd : d.length < 2 ^ 31) : (skip s d.length).all = r := by
  obtain ⟨buf, rest⟩ := s
  simp only [Src.all] at h
  rw [skip, if_neg (by omega)]
  have hr : r = (buf ++ rest).drop d.length := by rw [h]; simp
  split
  · rename_i hlt
    simp only at hlt
    simp only [Src.all, List.nil_append]
    rw [hr, List.drop_append, List.drop_eq_nil_of_le (as := buf) (by omega), List.nil_append]
  · rename_i hlt
    simp only at hlt
    simp only [Src.all]
    rw [hr, List.drop_append_of_le_length (by omega)]

theorem getn_all {s : Src} {d r : List UInt8} (h : s.all = d ++ r) : ∃ s', getn s d.length = some (d, s') ∧ s'.all = r := by
  obtain ⟨buf, rest⟩ := s
  simp only [Src.all] at h
  have hr : r = (buf ++ rest).drop d.length := by rw [h]; simp
  have hd : d = (buf ++ rest).take d.length := by rw [h]; simp
  have hlen : d.length ≤ buf.length + rest.length := by rw [← List.length_append, h, List.length_append]; omega
  simp only [getn]
  split
  · rename_i hlt
    rw [if_pos (by rw [List.length_take]; omega)]
    have e : buf ++ rest.take (d.length - buf.length) = d := by
      conv_rhs => rw [hd]
      rw [List.take_append, List.take_of_length_le (l := buf) (by omega)]
    refine ⟨⟨[], rest.drop (d.length - buf.length)⟩, by rw [e], ?_⟩
    simp only [Src.all, List.nil_append]
    rw [hr, List.drop_append, List.drop_eq_nil_of_le (as := buf) (by omega), List.nil_append]
  · rename_i hlt
    have e : buf.take d.length = d := by
      conv_rhs => rw [hd]
      rw [List.take_append_of_le_length (by omega)]
    refine ⟨⟨buf.drop d.length, rest⟩, by rw [e], ?_⟩
    simp only [Src.all]
    rw [hr, List.drop_append_of_le_length (by omega)]

theorem checkSig_all : ∀ (bs : List UInt8) {s : Src} {r : List UInt8}, s.all = bs ++ r → ∃ s', checkSig bs s = some s' ∧ s'.all = r
  | [], s, r, h => ⟨s, rfl, h⟩
  | b :: bs, s, r, h => by
    have h1 := get8_all h
    obtain ⟨s', h2, h3⟩ := checkSig_all bs h1.2
    exact ⟨s', by rw [checkSig, if_pos h1.1, h2], h3⟩

/-- exactly the files that begin with the signature pass -/
theorem checkSig_iff : ∀ (bs : List UInt8) (s : Src), 0 ∉ bs → ((∃ s', checkSig bs s = some s') ↔ bs <+: s.all)
  | [], s, _ => by simp [checkSig]
  | b :: bs, s, h0 => by
    cases hs : s.all with
    | nil =>
      rw [checkSig, get8_end hs, if_neg (fun h => h0 (List.mem_cons.mpr (.inl h)))]
      simp
    | cons a r =>
      have h1 := get8_all hs
      rw [checkSig, h1.1]
      by_cases hab : a = b
      · rw [if_pos hab, checkSig_iff bs _ (fun h => h0 (by simp [h])), h1.2, hab, List.cons_prefix_cons]
        simp
      · rw [if_neg hab, List.cons_prefix_cons]
        exact ⟨fun ⟨s', h⟩ => (by cases h), fun h => absurd h.1.symm hab⟩

end Verif.Png
