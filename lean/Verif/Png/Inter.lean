import Verif.Png.Adam
import Verif.Png.Every

/-! # Interlaced pictures: what is given back, and what is refused -/

namespace Verif.Png

/-- a sample whose bytes are the same is the same -/
theorem sampleAt_congr {m m' : Buf} {d q q' : Nat}
    (hs : q * (if d = 16 then 2 else 1) + (if d = 16 then 2 else 1) ≤ m.size)
    (hs' : q' * (if d = 16 then 2 else 1) + (if d = 16 then 2 else 1) ≤ m'.size)
    (h : ∀ b < (if d = 16 then 2 else 1), m.at_ (q * (if d = 16 then 2 else 1) + b) = m'.at_ (q' * (if d = 16 then 2 else 1) + b)) :
    sampleAt m d q = sampleAt m' d q' := by
  have hl : ∀ i i', i < m.size → i' < m'.size → m.at_ i = m'.at_ i' → load m i = load m' i' := fun i i' h1 h2 h3 => by
    rw [load, load, if_pos h1, if_pos h2, h3]
  by_cases hd : d = 16
  · simp only [hd, if_true] at hs hs' h
    rw [sampleAt, sampleAt, if_pos hd, if_pos hd, load16, load16, hl (2 * q) (2 * q') (by omega) (by omega) (by
      have := h 0 (by omega)
      rwa [Nat.mul_comm q, Nat.mul_comm q'] at this), hl (2 * q + 1) (2 * q' + 1) (by omega) (by omega) (by
      have := h 1 (by omega)
      rwa [Nat.mul_comm q, Nat.mul_comm q'] at this)]
  · simp only [hd, if_false] at hs hs' h
    rw [sampleAt, sampleAt, if_neg hd, if_neg hd, hl q q' (by omega) (by omega) (by
      have := h 0 (by omega)
      simpa using this)]

theorem getD_map_range {k i : Nat} (f : Nat → Nat) (h : i < k) : ((List.range k).map f).getD i 0 = f i := by
  rw [List.getD_eq_getElem?_getD, List.getElem?_map, List.getElem?_range h]
  rfl

theorem Sizes.sub {n outN x y d x' y' : Nat} (h : Sizes n outN x y d) (hx0 : 0 < x') (hx : x' ≤ x) (hy : y' ≤ y) : Sizes n outN x' y' d where
  hn := h.hn
  hx := hx0
  hd := h.hd
  hout := h.hout
  hnd := h.hnd
  hal := h.hal
  hsz := Nat.lt_of_le_of_lt (Nat.mul_le_mul_right _ (Nat.mul_le_mul hx hy)) h.hsz
  hline := by
    have : n * x' * d ≤ n * x * d := Nat.mul_le_mul_right _ (Nat.mul_le_mul_left _ hx)
    have := h.hline
    omega

/-- a pixel is as it should be -/
def Done (n outN W d color : Nat) (px : Nat → Nat → Nat → Nat) (m : Buf) (Y X : Nat) : Prop :=
  ∀ c < outN, sampleAt m d ((Y * W + X) * outN + c) = .ok (if c < n then shown color d (px Y X c) else top d)

theorem div_row {X W spc orig : Nat} (hW : 0 < W) (hW2 : W ≤ 2 ^ 24) (h : orig < spc) (hs : spc = 1 ∨ spc = 2 ∨ spc = 4 ∨ spc = 8)
    (hX : X < W) (hm : X % spc = orig) : X / spc < passSize W orig spc ∧ X / spc * spc + orig = X := by
  rw [passSize_eq hW hW2 h hs]
  rcases hs with rfl | rfl | rfl | rfl <;> omega

section
variable {room n outN W H d : Nat} {color : Nat}

/-- one pass -/
theorem pass_ok {px : Nat → Nat → Nat → Nat} (h : Sizes n outN W H d) (hH : 0 < H) (hW2 : W ≤ 2 ^ 24) (hH2 : H ≤ 2 ^ 24)
    (hroom : W * H * (outN * (if d = 16 then 2 else 1)) ≤ room) {p : Nat} {t : Nat × Nat × Nat × Nat} (ht : PassIs p t) {m : Buf}
    {raw : List UInt8} (hm : m.size = W * H * (outN * (if d = 16 then 2 else 1))) (hne : ¬ (columns p W = [] ∨ lines p H = []))
    (hs : Scans n d (columns p W).length (lines p H).length (fun j i => px ((lines p H).getD j 0) ((columns p W).getD i 0)) raw) :
    ∃ m', pass room n outN W H d color t (m, raw) =
        .ok (m', raw.drop ((lineBytes n (columns p W).length d + 1) * (lines p H).length)) ∧ m'.size = m.size ∧
      ∀ Y < H, ∀ X < W, ((X % t.2.2.1 = t.1 ∧ Y % t.2.2.2 = t.2.1) ∨ Done n outN W d color px m Y X) →
        Done n outN W d color px m' Y X := by
  have hW := h.hx
  have cs := columns_eq ht hW hW2
  have ls := lines_eq ht hH hH2
  have cl : (columns p W).length = passSize W t.1 t.2.2.1 := by rw [cs]; simp
  have ll : (lines p H).length = passSize H t.2.1 t.2.2.2 := by rw [ls]; simp
  have hpx : passSize W t.1 t.2.2.1 ≠ 0 := fun h0 => hne (.inl (List.length_eq_zero_iff.mp (cl.trans h0)))
  have hpy : passSize H t.2.1 t.2.2.2 ≠ 0 := fun h0 => hne (.inr (List.length_eq_zero_iff.mp (ll.trans h0)))
  have hle := passSize_le hW hW2 ht.1 ht.2.2.1
  have hle' := passSize_le hH hH2 ht.2.1 ht.2.2.2.1
  rw [cl, ll] at hs
  obtain ⟨out, o1, o2, o3⟩ := createRaw_scans (room := room) color (h.sub (by omega) hle hle')
    (Nat.le_trans (Nat.mul_le_mul_right _ (Nat.mul_le_mul hle hle')) hroom) hs
  have hgx : ∀ i < passSize W t.1 t.2.2.1, i * t.2.2.1 + t.1 < W := fun i hi => column_lt hW hW2 ht.1 ht.2.2.1 hi
  have hgy : ∀ j < passSize H t.2.1 t.2.2.2, j * t.2.2.2 + t.2.1 < H := fun j hj => column_lt hH hH2 ht.2.1 ht.2.2.2.1 hj
  obtain ⟨m', e1, e2, e3, e4⟩ := spread_ok (out := out) (m0 := m) (px := passSize W t.1 t.2.2.1) (py := passSize H t.2.1 t.2.2.2)
    (W := W) (H := H) (ob := outN * (if d = 16 then 2 else 1)) (ox := t.1) (oy := t.2.1) (sx := t.2.2.1) (sy := t.2.2.2)
    (by rw [o2]) (by rw [hm]) hgx hgy (by have := ht.1; omega) (by have := ht.2.1; omega)
  refine ⟨m', ?_, e2, fun Y hY X hX hor c hc => ?_⟩
  · simp only [pass]
    rw [if_pos ⟨hpx, hpy⟩, o1, Outcome.bind_ok, e1, Outcome.bind_ok, widthBytes_eq, cl, ll]
  · obtain ⟨B, hB⟩ : ∃ B, B = if d = 16 then 2 else 1 := ⟨_, rfl⟩
    have hbyte : ∀ P, ∀ b < B, (P * outN + c) * B + b = P * (outN * B) + (c * B + b) := fun P b _ => by ring
    have hcb : ∀ b < B, c * B + b < outN * B := fun b hb => by
      calc c * B + b < c * B + B := by omega
        _ = (c + 1) * B := by ring
        _ ≤ outN * B := Nat.mul_le_mul_right _ hc
    have hB0 : 0 < B := by rw [hB]; split <;> omega
    have hin : ∀ {w hh Y X : Nat}, Y < hh → X < w → ((Y * w + X) * outN + c) * B + B ≤ w * hh * (outN * B) := by
      intro w hh Y X hY hX
      have h1 : (Y * w + X) * outN + c + 1 ≤ w * hh * outN := by
        have h2 : Y * w + X + 1 ≤ w * hh := by
          have := lt_of_row (stride := w) hY
          rw [Nat.mul_comm Y w]; omega
        calc (Y * w + X) * outN + c + 1 ≤ (Y * w + X) * outN + outN := by omega
          _ = (Y * w + X + 1) * outN := by ring
          _ ≤ w * hh * outN := Nat.mul_le_mul_right _ h2
      calc ((Y * w + X) * outN + c) * B + B = ((Y * w + X) * outN + c + 1) * B := by ring
        _ ≤ w * hh * outN * B := Nat.mul_le_mul_right _ h1
        _ = w * hh * (outN * B) := by ring
    by_cases hin' : X % t.2.2.1 = t.1 ∧ Y % t.2.2.2 = t.2.1
    · obtain ⟨hi, hiX⟩ := div_row hW hW2 ht.1 ht.2.2.1 hX hin'.1
      obtain ⟨hj, hjY⟩ := div_row hH hH2 ht.2.1 ht.2.2.2.1 hY hin'.2
      have hsame := e3 _ hj _ hi
      rw [hiX, hjY] at hsame
      rw [sampleAt_congr (m' := out) (q' := (Y / t.2.2.2 * passSize W t.1 t.2.2.1 + X / t.2.2.1) * outN + c)
        (by rw [← hB, e2, hm, ← hB]; exact hin hY hX) (by rw [← hB, o2, ← hB]; exact hin hj hi)
        (by
          rw [← hB] at hsame ⊢
          intro b hb
          rw [hbyte _ b hb, hbyte _ b hb]
          exact hsame _ (hcb b hb)), o3 _ hj _ hi c hc]
      simp only [cs, ls, getD_map_range _ hi, getD_map_range _ hj, hiX, hjY]
    · have hold := hor.resolve_left hin'
      rw [← hold c hc]
      have hsame := e4 Y hY X hX (by
        intro j hj i hi
        by_contra hc
        simp only [not_or, not_not, ne_eq] at hc
        refine hin' ⟨?_, ?_⟩
        · rw [hc.2, Nat.mul_comm, Nat.mul_add_mod, Nat.mod_eq_of_lt ht.1]
        · rw [hc.1, Nat.mul_comm, Nat.mul_add_mod, Nat.mod_eq_of_lt ht.2.1])
      refine sampleAt_congr (by rw [← hB, e2, hm, ← hB]; exact hin hY hX) (by rw [← hB, hm, ← hB]; exact hin hY hX) ?_
      rw [← hB] at hsame ⊢
      intro b hb
      rw [hbyte _ b hb]
      exact hsame _ (hcb b hb)

/-- an empty pass -/
theorem pass_empty (h : 0 < W) (hH : 0 < H) (hW2 : W ≤ 2 ^ 24) (hH2 : H ≤ 2 ^ 24) {p : Nat} {t : Nat × Nat × Nat × Nat} (ht : PassIs p t)
    (s : Buf × List UInt8) (he : columns p W = [] ∨ lines p H = []) : pass room n outN W H d color t s = .ok s := by
  have cl : (columns p W).length = passSize W t.1 t.2.2.1 := by rw [columns_eq ht h hW2]; simp
  have ll : (lines p H).length = passSize H t.2.1 t.2.2.2 := by rw [lines_eq ht hH hH2]; simp
  simp only [pass]
  rw [if_neg]
  rintro ⟨h1, h2⟩
  rcases he with he | he
  · rw [he] at cl; exact h1 cl.symm
  · rw [he] at ll; exact h2 ll.symm

/-- the passes one after another -/
theorem passes_ok {px : Nat → Nat → Nat → Nat} (h : Sizes n outN W H d) (hH : 0 < H) (hW2 : W ≤ 2 ^ 24) (hH2 : H ≤ 2 ^ 24)
    (hroom : W * H * (outN * (if d = 16 then 2 else 1)) ≤ room) {ps : List Nat} {ts : List (Nat × Nat × Nat × Nat)}
    (hf : List.Forall₂ PassIs ps ts) : ∀ {m : Buf} {raw : List UInt8}, m.size = W * H * (outN * (if d = 16 then 2 else 1)) →
      Passes n d W H px ps raw →
      ∃ s, passes room n outN W H d color ts (m, raw) = .ok s ∧ s.1.size = m.size ∧
        ∀ Y < H, ∀ X < W, ((∃ t ∈ ts, X % t.2.2.1 = t.1 ∧ Y % t.2.2.2 = t.2.1) ∨ Done n outN W d color px m Y X) →
          Done n outN W d color px s.1 Y X := by
  induction hf with
  | nil =>
    intro m raw hm _
    exact ⟨_, rfl, rfl, fun Y hY X hX h => by simpa using h⟩
  | @cons p t ps ts ht hf ih =>
    intro m raw hm hp
    rw [Passes] at hp
    by_cases he : columns p W = [] ∨ lines p H = []
    · rw [if_pos he] at hp
      obtain ⟨s, h1, h2, h3⟩ := ih hm hp
      refine ⟨s, by rw [passes, pass_empty h.hx hH hW2 hH2 ht _ he, Outcome.bind_ok, h1], h2, fun Y hY X hX hor => h3 Y hY X hX ?_⟩
      rcases hor with ⟨t', ht', hx⟩ | hx
      · rcases List.mem_cons.mp ht' with rfl | ht'
        · exfalso
          obtain ⟨hi, _⟩ := div_row h.hx hW2 ht.1 ht.2.2.1 hX hx.1
          obtain ⟨hj, _⟩ := div_row hH hH2 ht.2.1 ht.2.2.2.1 hY hx.2
          have cl : (columns p W).length = passSize W t'.1 t'.2.2.1 := by rw [columns_eq ht h.hx hW2]; simp
          have ll : (lines p H).length = passSize H t'.2.1 t'.2.2.2 := by rw [lines_eq ht hH hH2]; simp
          rcases he with he | he
          · rw [← cl, he] at hi; exact absurd hi (Nat.not_lt_zero _)
          · rw [← ll, he] at hj; exact absurd hj (Nat.not_lt_zero _)
        · exact .inl ⟨t', ht', hx⟩
      · exact .inr hx
    · rw [if_neg he] at hp
      obtain ⟨m1, e1, e2, e3⟩ := pass_ok (color := color) h hH hW2 hH2 hroom ht hm he hp.1
      obtain ⟨s, h1, h2, h3⟩ := ih (e2.trans hm) hp.2
      refine ⟨s, by rw [passes, e1, Outcome.bind_ok, h1], h2.trans e2, fun Y hY X hX hor => h3 Y hY X hX ?_⟩
      rcases hor with ⟨t', ht', hx⟩ | hx
      · rcases List.mem_cons.mp ht' with rfl | ht'
        · exact .inr (e3 Y hY X hX (.inl hx))
        · exact .inl ⟨t', ht', hx⟩
      · exact .inr (e3 Y hY X hX (.inr hx))

/-- every pixel is of some pass -/
theorem covered (X Y : Nat) : ∃ t ∈ adam7, X % t.2.2.1 = t.1 ∧ Y % t.2.2.2 = t.2.1 := by
  have key : ∀ X < 8, ∀ Y < 8, ∃ t ∈ adam7, X % t.2.2.1 = t.1 ∧ Y % t.2.2.2 = t.2.1 := by decide
  have hdvd : ∀ t ∈ adam7, t.2.2.1 ∣ 8 ∧ t.2.2.2 ∣ 8 := by decide
  obtain ⟨t, ht, h1, h2⟩ := key (X % 8) (Nat.mod_lt _ (by decide)) (Y % 8) (Nat.mod_lt _ (by decide))
  rw [Nat.mod_mod_of_dvd _ (hdvd t ht).1] at h1
  rw [Nat.mod_mod_of_dvd _ (hdvd t ht).2] at h2
  exact ⟨t, ht, h1, h2⟩

/-- the picture, interlaced or not -/
theorem createImage_ok {px : Nat → Nat → Nat → Nat} {raw : List UInt8} {i : Bool} (color : Nat) (h : Sizes n outN W H d) (hH : 0 < H)
    (hW2 : W ≤ 2 ^ 24) (hH2 : H ≤ 2 ^ 24) (hroom : W * H * (outN * (if d = 16 then 2 else 1)) ≤ room) (hp : Pixels i n d W H px raw) :
    ∃ m, createImage room raw n outN W H d color i = .ok m ∧ m.size = W * H * (outN * (if d = 16 then 2 else 1)) ∧
      ∀ Y < H, ∀ X < W, ∀ c < outN, sampleAt m d ((Y * W + X) * outN + c) =
        .ok (if c < n then shown color d (px Y X c) else top d) := by
  cases i with
  | false =>
    obtain ⟨m, h1, h2⟩ := createRaw_scans (room := room) color h hroom (by simpa [Pixels] using hp)
    exact ⟨m, by simpa [createImage] using h1, h2⟩
  | true =>
    obtain ⟨s, h1, h2, h3⟩ := passes_ok (color := color) (m := fresh (W * H * (outN * (if d = 16 then 2 else 1)))) h hH hW2 hH2 hroom passes_are rfl
      (by simpa [Pixels] using hp)
    refine ⟨s.1, ?_, h2, fun Y hY X hX => h3 Y hY X hX (.inl (covered X Y))⟩
    simp only [createImage]
    rw [if_neg (by decide), mallocMad3, if_pos ⟨h.hsz, hroom⟩, Option.getD_some, h1, Outcome.bind_ok]

/-- the passes, each with its own pixels -/
def PassesQ (n d W H : Nat) (q : Nat → Nat → Nat → Nat → Nat) : List Nat → List UInt8 → Prop
  | [], _ => True
  | p :: ps, raw =>
    if columns p W = [] ∨ lines p H = [] then PassesQ n d W H q ps raw
    else
      Scans n d (columns p W).length (lines p H).length (q p) raw ∧
        PassesQ n d W H q ps (raw.drop ((lineBytes n (columns p W).length d + 1) * (lines p H).length))

theorem PassesQ.congr {q q' : Nat → Nat → Nat → Nat → Nat} : ∀ {ps : List Nat} {raw : List UInt8}, (∀ p ∈ ps, q p = q' p) →
    PassesQ n d W H q ps raw → PassesQ n d W H q' ps raw
  | [], _, _, _ => trivial
  | p :: ps, raw, hq, h => by
    rw [PassesQ] at h ⊢
    split
    · rename_i he; rw [if_pos he] at h; exact PassesQ.congr (fun p hp => hq p (by simp [hp])) h
    · rename_i he
      rw [if_neg he] at h
      exact ⟨by rw [← hq p (by simp)]; exact h.1, PassesQ.congr (fun p hp => hq p (by simp [hp])) h.2⟩

theorem Scans.congr {n d x y : Nat} {px px' : Nat → Nat → Nat → Nat} {raw : List UInt8} (h : Scans n d x y px raw)
    (he : ∀ j < y, ∀ i < x, ∀ c < n, px j i c = px' j i c) : Scans n d x y px' raw := by
  obtain ⟨pic, h1, h2⟩ := h
  exact ⟨pic, h1, fun j hj i hi c hc => (h2 j hj i hi c hc).trans (he j hj i hi c hc)⟩

/-- the row or column in a pass -/
def inPass (l : List (Nat × Nat × Nat × Nat)) (p X Y : Nat) : Nat × Nat :=
  match l[p - 1]? with
  | some t => (Y / t.2.2.2, X / t.2.2.1)
  | none => (0, 0)

theorem passesQ_passes {q : Nat → Nat → Nat → Nat → Nat} (hW : 0 < W) (hH : 0 < H) (hW2 : W ≤ 2 ^ 24) (hH2 : H ≤ 2 ^ 24) :
    ∀ {ps : List Nat} {ts : List (Nat × Nat × Nat × Nat)}, List.Forall₂ (fun p t => PassIs p t ∧ adam7[p - 1]? = some t) ps ts →
      ∀ {raw : List UInt8}, PassesQ n d W H q ps raw →
        Passes n d W H (fun Y X => q (passOf X Y) (inPass adam7 (passOf X Y) X Y).1 (inPass adam7 (passOf X Y) X Y).2) ps raw := by
  intro ps ts hf
  induction hf with
  | nil => intro raw _; trivial
  | @cons p t ps ts ht hf ih =>
    intro raw h
    rw [PassesQ] at h
    rw [Passes]
    split
    · rename_i he; rw [if_pos he] at h; exact ih h
    · rename_i he
      rw [if_neg he] at h
      refine ⟨h.1.congr fun j hj i hi c _ => ?_, ih h.2⟩
      have cs := columns_eq ht.1 hW hW2
      have ls := lines_eq ht.1 hH hH2
      have hi' : i < passSize W t.1 t.2.2.1 := by rw [cs] at hi; simpa using hi
      have hj' : j < passSize H t.2.1 t.2.2.2 := by rw [ls] at hj; simpa using hj
      simp only [cs, ls, getD_map_range _ hi', getD_map_range _ hj']
      have h1 : t.1 < t.2.2.1 := ht.1.1
      have h2 : t.2.1 < t.2.2.2 := ht.1.2.1
      have hp : passOf (i * t.2.2.1 + t.1) (j * t.2.2.2 + t.2.1) = p :=
        ht.1.2.2.2.2.2.2 _ _ (by rw [Nat.mul_comm, Nat.mul_add_mod, Nat.mod_eq_of_lt h1])
          (by rw [Nat.mul_comm, Nat.mul_add_mod, Nat.mod_eq_of_lt h2])
      rw [hp, inPass, ht.2]
      simp only
      rw [Nat.mul_comm i, Nat.mul_add_div (by omega), Nat.div_eq_of_lt h1, Nat.mul_comm j, Nat.mul_add_div (by omega), Nat.div_eq_of_lt h2]
      rfl

theorem passes_at : List.Forall₂ (fun p t => PassIs p t ∧ adam7[p - 1]? = some t) [1, 2, 3, 4, 5, 6, 7] adam7 := by
  have h := passes_are
  rw [adam7] at h ⊢
  simp only [List.forall₂_cons] at h ⊢
  obtain ⟨h1, h2, h3, h4, h5, h6, h7, _⟩ := h
  exact ⟨⟨h1, rfl⟩, ⟨h2, rfl⟩, ⟨h3, rfl⟩, ⟨h4, rfl⟩, ⟨h5, rfl⟩, ⟨h6, rfl⟩, ⟨h7, rfl⟩, .nil⟩

/-- what is not the passes of a picture is refused -/
theorem passes_refuses (h : Sizes n outN W H d) (hH : 0 < H) (hW2 : W ≤ 2 ^ 24) (hH2 : H ≤ 2 ^ 24)
    (hroom : W * H * (outN * (if d = 16 then 2 else 1)) ≤ room) {ps : List Nat} {ts : List (Nat × Nat × Nat × Nat)}
    (hf : List.Forall₂ PassIs ps ts) (hnd : ps.Nodup) : ∀ {m : Buf} {raw : List UInt8}, m.size = W * H * (outN * (if d = 16 then 2 else 1)) →
      (∃ q, PassesQ n d W H q ps raw) ∨ ∃ e, passes room n outN W H d color ts (m, raw) = .throws e := by
  induction hf with
  | nil => intro m raw _; exact .inl ⟨fun _ _ _ _ => 0, trivial⟩
  | @cons p t ps ts ht hf ih =>
    intro m raw hm
    have hnd' := List.nodup_cons.mp hnd
    by_cases he : columns p W = [] ∨ lines p H = []
    · rcases ih hnd'.2 (raw := raw) hm with ⟨q, hq⟩ | ⟨e, h1⟩
      · exact .inl ⟨q, by rw [PassesQ, if_pos he]; exact hq⟩
      · exact .inr ⟨e, by rw [passes, pass_empty h.hx hH hW2 hH2 ht _ he, Outcome.bind_ok, h1]⟩
    · by_cases hs : ∃ px, Scans n d (columns p W).length (lines p H).length px raw
      · obtain ⟨px, hs⟩ := hs
        -- the pixels of this pass as those of the picture
        have cs := columns_eq ht h.hx hW2
        have ls := lines_eq ht hH hH2
        have hs' : Scans n d (columns p W).length (lines p H).length
            (fun j i => (fun Y X => px (Y / t.2.2.2) (X / t.2.2.1)) ((lines p H).getD j 0) ((columns p W).getD i 0)) raw := by
          refine hs.congr fun j hj i hi c _ => ?_
          have hi' : i < passSize W t.1 t.2.2.1 := by rw [cs] at hi; simpa using hi
          have hj' : j < passSize H t.2.1 t.2.2.2 := by rw [ls] at hj; simpa using hj
          simp only [cs, ls, getD_map_range _ hi', getD_map_range _ hj']
          have h1 : t.1 < t.2.2.1 := ht.1
          have h2 : t.2.1 < t.2.2.2 := ht.2.1
          rw [Nat.mul_comm i, Nat.mul_add_div (by omega), Nat.div_eq_of_lt h1, Nat.mul_comm j, Nat.mul_add_div (by omega), Nat.div_eq_of_lt h2]
          rfl
        obtain ⟨m1, e1, e2, _⟩ := pass_ok (color := color) (px := fun Y X => px (Y / t.2.2.2) (X / t.2.2.1)) h hH hW2 hH2 hroom ht hm he hs'
        rcases ih hnd'.2 (m := m1) (e2.trans hm) with ⟨q, hq⟩ | ⟨e, h1⟩
        · refine .inl ⟨fun p' => if p' = p then px else q p', ?_⟩
          rw [PassesQ, if_neg he]
          refine ⟨by simpa using hs, hq.congr fun p' hp' => ?_⟩
          rw [if_neg (by rintro rfl; exact hnd'.1 hp')]
        · exact .inr ⟨e, by rw [passes, e1, Outcome.bind_ok, h1]⟩
      · have cl : (columns p W).length = passSize W t.1 t.2.2.1 := by rw [columns_eq ht h.hx hW2]; simp
        have ll : (lines p H).length = passSize H t.2.1 t.2.2.2 := by rw [lines_eq ht hH hH2]; simp
        have hpx : passSize W t.1 t.2.2.1 ≠ 0 := fun h0 => he (.inl (List.length_eq_zero_iff.mp (cl.trans h0)))
        have hpy : passSize H t.2.1 t.2.2.2 ≠ 0 := fun h0 => he (.inr (List.length_eq_zero_iff.mp (ll.trans h0)))
        have hle := passSize_le h.hx hW2 ht.1 ht.2.2.1
        have hle' := passSize_le hH hH2 ht.2.1 ht.2.2.2.1
        rw [cl, ll] at hs
        obtain ⟨e, h1⟩ := createRaw_refuses (room := room) color (h.sub (by omega) hle hle')
          (Nat.le_trans (Nat.mul_le_mul_right _ (Nat.mul_le_mul hle hle')) hroom) hs
        refine .inr ⟨e, ?_⟩
        rw [passes]
        simp only [pass]
        rw [if_pos ⟨hpx, hpy⟩, h1]
        rfl

/-- what is not a picture is refused -/
theorem createImage_refuses {raw : List UInt8} {i : Bool} (color : Nat) (h : Sizes n outN W H d) (hH : 0 < H)
    (hW2 : W ≤ 2 ^ 24) (hH2 : H ≤ 2 ^ 24) (hroom : W * H * (outN * (if d = 16 then 2 else 1)) ≤ room)
    (hno : ¬ ∃ px, Pixels i n d W H px raw) : ∃ e, createImage room raw n outN W H d color i = .throws e := by
  cases i with
  | false =>
    obtain ⟨e, h1⟩ := createRaw_refuses (room := room) color h hroom (by simpa [Pixels] using hno)
    exact ⟨e, by simpa [createImage] using h1⟩
  | true =>
    rcases passes_refuses (color := color) (m := fresh (W * H * (outN * (if d = 16 then 2 else 1)))) (raw := raw) h hH hW2 hH2 hroom passes_are
      (by decide) rfl with ⟨q, hq⟩ | ⟨e, h1⟩
    · exact absurd ⟨_, by rw [Pixels, if_pos rfl]; exact passesQ_passes h.hx hH hW2 hH2 passes_at hq⟩ hno
    · refine ⟨e, ?_⟩
      simp only [createImage]
      rw [if_neg (by decide), mallocMad3, if_pos ⟨h.hsz, hroom⟩, Option.getD_some, h1]
      rfl

end

end Verif.Png
