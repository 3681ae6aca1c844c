import Verif.Geometry.Model
import Verif.Vec.Props
import Mathlib.Algebra.BigOperators.Group.List.Basic
import Mathlib.Data.List.Rotate
import Mathlib.Tactic.Abel
import Mathlib.Tactic.Module

/-!
# Sums over the edges of closed chains
-/

namespace Verif.Geometry
open Verif.Vec

variable {P Q M N : Type}

/-- sum over consecutive pairs -/
def pathSum [AddCommMonoid M] (f : P → P → M) : List P → M
  | p :: q :: r => f p q + pathSum f (q :: r)
  | _ => 0

/-- sum over the edges of a closed chain -/
def cyc [AddCommMonoid M] (f : P → P → M) : List P → M
  | [] => 0
  | a :: r => pathSum f (a :: (r ++ [a]))

section
variable [AddCommMonoid M]

@[simp] theorem pathSum_nil (f : P → P → M) : pathSum f [] = 0 := rfl
@[simp] theorem pathSum_single (f : P → P → M) (a : P) : pathSum f [a] = 0 := rfl
@[simp] theorem pathSum_cons_cons (f : P → P → M) (a b : P) (l : List P) :
    pathSum f (a :: b :: l) = f a b + pathSum f (b :: l) := rfl

theorem pathSum_append (f : P → P → M) (l : List P) (x : P) (r : List P) :
    pathSum f (l ++ x :: r) = pathSum f (l ++ [x]) + pathSum f (x :: r) := by
  induction l with
  | nil => simp
  | cons a l ih =>
    cases l with
    | nil => simp
    | cons b l =>
      simp only [List.cons_append, pathSum_cons_cons] at ih ⊢
      rw [ih, add_assoc]

theorem pathSum_snoc (f : P → P → M) (l : List P) (x y : P) :
    pathSum f (l ++ [x, y]) = pathSum f (l ++ [x]) + f x y := by
  rw [pathSum_append]; simp

theorem cyc_rotate_one (f : P → P → M) (a : P) (l : List P) : cyc f (l ++ [a]) = cyc f (a :: l) := by
  cases l with
  | nil => rfl
  | cons b l =>
    show pathSum f (b :: ((l ++ [a]) ++ [b])) = pathSum f (a :: b :: (l ++ [a]))
    have e : b :: ((l ++ [a]) ++ [b]) = (b :: l) ++ [a, b] := by simp
    rw [e, pathSum_snoc, pathSum_cons_cons, add_comm]
    rfl

theorem cyc_rotate (f : P → P → M) (l : List P) (n : Nat) : cyc f (l.rotate n) = cyc f l := by
  induction n generalizing l with
  | zero => simp
  | succ n ih =>
    cases l with
    | nil => simp
    | cons a l => rw [List.rotate_cons_succ, ih, cyc_rotate_one]

theorem pathSum_map (f : Q → Q → M) (φ : P → Q) (l : List P) :
    pathSum f (l.map φ) = pathSum (fun p q => f (φ p) (φ q)) l := by
  induction l with
  | nil => rfl
  | cons a l ih =>
    cases l with
    | nil => rfl
    | cons b l => simp only [List.map_cons, pathSum_cons_cons] at ih ⊢; rw [ih]

theorem cyc_map (f : Q → Q → M) (φ : P → Q) (l : List P) :
    cyc f (l.map φ) = cyc (fun p q => f (φ p) (φ q)) l := by
  cases l with
  | nil => rfl
  | cons a l =>
    show pathSum f (φ a :: (l.map φ ++ [φ a])) = _
    have : φ a :: (l.map φ ++ [φ a]) = (a :: (l ++ [a])).map φ := by simp
    rw [this, pathSum_map]; rfl

theorem pathSum_hom [AddCommMonoid N] (φ : M →+ N) (f : P → P → M) (l : List P) :
    pathSum (fun p q => φ (f p q)) l = φ (pathSum f l) := by
  induction l with
  | nil => simp
  | cons a l ih =>
    cases l with
    | nil => simp
    | cons b l => simp only [pathSum_cons_cons] at ih ⊢; rw [ih, map_add]

theorem cyc_hom [AddCommMonoid N] (φ : M →+ N) (f : P → P → M) (l : List P) :
    cyc (fun p q => φ (f p q)) l = φ (cyc f l) := by
  cases l with
  | nil => simp [cyc]
  | cons a l => exact pathSum_hom φ f _

theorem pathSum_add (f g : P → P → M) (l : List P) :
    pathSum (fun p q => f p q + g p q) l = pathSum f l + pathSum g l := by
  induction l with
  | nil => simp
  | cons a l ih =>
    cases l with
    | nil => simp
    | cons b l => simp only [pathSum_cons_cons] at ih ⊢; rw [ih]; abel

theorem cyc_add (f g : P → P → M) (l : List P) :
    cyc (fun p q => f p q + g p q) l = cyc f l + cyc g l := by
  cases l with
  | nil => simp [cyc]
  | cons a l => exact pathSum_add f g _

theorem pathSum_reverse (f : P → P → M) (l : List P) :
    pathSum f l.reverse = pathSum (fun p q => f q p) l := by
  induction l with
  | nil => rfl
  | cons a l ih =>
    cases l with
    | nil => rfl
    | cons b l =>
      simp only [List.reverse_cons, List.append_assoc, List.cons_append, List.nil_append] at ih ⊢
      rw [pathSum_snoc, ih, pathSum_cons_cons, add_comm]

theorem cyc_reverse (f : P → P → M) (l : List P) :
    cyc f l.reverse = cyc (fun p q => f q p) l := by
  cases l with
  | nil => rfl
  | cons a l =>
    rw [List.reverse_cons, cyc_rotate_one]
    show pathSum f (a :: (l.reverse ++ [a])) = pathSum (fun p q => f q p) (a :: (l ++ [a]))
    have : a :: (l.reverse ++ [a]) = (a :: (l ++ [a])).reverse := by simp
    rw [this, pathSum_reverse]

theorem pathSum_congr {f g : P → P → M} (l : List P) (h : ∀ p ∈ l, ∀ q ∈ l, f p q = g p q) :
    pathSum f l = pathSum g l := by
  induction l with
  | nil => rfl
  | cons a l ih =>
    cases l with
    | nil => rfl
    | cons b l =>
      simp only [pathSum_cons_cons]
      rw [h a (by simp) b (by simp), ih fun p hp q hq => h p (by simp [hp]) q (by simp [hq])]

theorem cyc_congr {f g : P → P → M} (l : List P) (h : ∀ p ∈ l, ∀ q ∈ l, f p q = g p q) :
    cyc f l = cyc g l := by
  cases l with
  | nil => rfl
  | cons a l =>
    apply pathSum_congr
    intro p hp q hq
    apply h
    · simp at hp; simp; tauto
    · simp at hq; simp; tauto

/-- the directed edges of the closed chain: each point with its successor -/
def edges (l : List P) : List (P × P) := l.zip (l.rotate 1)

theorem pathSum_zip (f : P → P → M) (a : P) (l : List P) :
    pathSum f (a :: l) = (((a :: l).zip l).map fun e => f e.1 e.2).sum := by
  induction l generalizing a with
  | nil => simp
  | cons b l ih => rw [pathSum_cons_cons, ih]; simp

theorem cyc_edges (f : P → P → M) (l : List P) : cyc f l = ((edges l).map fun e => f e.1 e.2).sum := by
  cases l with
  | nil => simp [cyc, edges]
  | cons a l =>
    show pathSum f (a :: (l ++ [a])) = _
    rw [pathSum_zip, edges, List.rotate_cons_succ, List.rotate_zero]
    have : (a :: (l ++ [a])).zip (l ++ [a]) = (a :: l).zip (l ++ [a]) := by
      have h := List.zip_append (l₁ := a :: l) (l₂ := l ++ [a]) (r₁ := [a]) (r₂ := []) (by simp)
      simpa using h
    rw [this]

/-- the walk of the iterator overloads -/
theorem walk_sum (f : P → P → M) (s : M) (l : List P) (hl : l ≠ []) :
    walk (fun s p q => s + f p q) s l = .ok (s + cyc f l) := by
  have key : ∀ (l : List P) (p : P) (s : M),
      (l.foldl (fun (st : P × M) pn => (pn, st.2 + f st.1 pn)) (p, s)).2 = s + pathSum f (p :: l) := by
    intro l
    induction l with
    | nil => intro p s; simp
    | cons a l ih => intro p s; rw [List.foldl_cons, ih, pathSum_cons_cons, add_assoc]
  obtain ⟨l', b, rfl⟩ : ∃ l' b, l = l' ++ [b] := ⟨l.dropLast, l.getLast hl, (List.dropLast_append_getLast hl).symm⟩
  unfold walk
  rw [List.getLast?_concat]
  simp only
  rw [key, cyc_rotate_one]
  rfl

end

section Group
variable [AddCommGroup M]

theorem pathSum_telescope (h : P → M) (a : P) (l : List P) (b : P) :
    pathSum (fun p q => h q - h p) (a :: (l ++ [b])) = h b - h a := by
  induction l generalizing a with
  | nil => simp
  | cons c l ih => rw [List.cons_append, pathSum_cons_cons, ih]; abel

theorem cyc_telescope (h : P → M) (l : List P) : cyc (fun p q => h q - h p) l = 0 := by
  cases l with
  | nil => rfl
  | cons a l => show pathSum _ (a :: (l ++ [a])) = 0; rw [pathSum_telescope]; simp

theorem cyc_neg (f : P → P → M) (l : List P) : cyc (fun p q => -f p q) l = -cyc f l :=
  cyc_hom (-(AddMonoidHom.id M)) f l

/-- adding a difference of potentials does not change a closed sum -/
theorem cyc_add_telescope (f : P → P → M) (h : P → M) (l : List P) :
    cyc (fun p q => f p q + (h q - h p)) l = cyc f l := by
  rw [cyc_add, cyc_telescope, add_zero]

/-- cutting along the diagonal from `a` to `b` -/
theorem cyc_cut (f : P → P → M) (hf : ∀ p q, f p q = -f q p) (a b : P) (l r : List P) :
    cyc f (a :: (l ++ b :: r)) = cyc f (a :: (l ++ [b])) + cyc f (b :: (r ++ [a])) := by
  have e1 : cyc f (a :: (l ++ b :: r)) = pathSum f (a :: (l ++ [b])) + pathSum f (b :: (r ++ [a])) := by
    show pathSum f (a :: ((l ++ b :: r) ++ [a])) = _
    have : a :: ((l ++ b :: r) ++ [a]) = (a :: l) ++ b :: (r ++ [a]) := by simp
    rw [this, pathSum_append]; rfl
  have e2 : ∀ (x y : P) (m : List P), cyc f (x :: (m ++ [y])) = pathSum f (x :: (m ++ [y])) + f y x := by
    intro x y m
    show pathSum f (x :: ((m ++ [y]) ++ [x])) = _
    have : x :: ((m ++ [y]) ++ [x]) = (x :: m) ++ [y, x] := by simp
    rw [this, pathSum_snoc]; rfl
  rw [e1, e2, e2, hf b a]; abel

end Group

section Ring
variable {K : Type} [CommRing K]

theorem cyc_mul_left (c : K) (f : P → P → K) (l : List P) : cyc (fun p q => c * f p q) l = c * cyc f l :=
  cyc_hom (AddMonoidHom.mulLeft c) f l

theorem cyc_apply {ι : Type} (f : P → P → ι → K) (l : List P) (i : ι) :
    cyc f l i = cyc (fun p q => f p q i) l :=
  (cyc_hom (Pi.evalAddMonoidHom (fun _ : ι => K) i) f l).symm

end Ring

/-! ## The recursions are sums -/

section Field
variable {K : Type} [Field K]

/-- signed double area of one edge -/
def wedge (p q : Vec 2 K) : K := p 0 * q 1 - q 0 * p 1

theorem wedge_anti (p q : Vec 2 K) : wedge p q = -wedge q p := by unfold wedge; ring

theorem areaRec_eq (s : K) (l : List (Vec 2 K)) : areaRec s l = s + pathSum wedge l := by
  induction l generalizing s with
  | nil => simp [areaRec]
  | cons a l ih =>
    cases l with
    | nil => simp [areaRec]
    | cons b l => rw [areaRec, ih, pathSum_cons_cons, wedge, add_assoc]

theorem areaRec_cyc (t : Vec 2 K) (args : List (Vec 2 K)) :
    areaRec 0 (t :: (args ++ [t])) = cyc wedge (t :: args) := by
  rw [areaRec_eq, zero_add]; rfl

/-- first moments of one edge -/
def moment (p q : Vec 2 K) : Vec 2 K := fun i => wedge p q * (p i + q i)

theorem vec2_eta (v : Vec 2 K) : ![v 0, v 1] = v := by
  funext i; fin_cases i <;> rfl

theorem centroidRec_eq (cx : Vec 2 K) (s : K) (l : List (Vec 2 K)) :
    centroidRec cx s l = (cx + pathSum moment l, s + pathSum wedge l) := by
  induction l generalizing cx s with
  | nil => simp [centroidRec]
  | cons a l ih =>
    cases l with
    | nil => simp [centroidRec]
    | cons b l =>
      rw [centroidRec, ih, pathSum_cons_cons, pathSum_cons_cons]
      refine Prod.ext ?_ ?_
      · funext i
        simp only [Pi.add_apply, moment, wedge]
        fin_cases i <;> simp <;> ring
      · simp only [wedge]; ring

theorem addTo_eq (a b : Vec d K) : addTo a b = a + b := rfl

theorem foldl_addTo (s : Vec d K) (l : List (Vec d K)) : l.foldl addTo s = s + l.sum := by
  induction l generalizing s with
  | nil => simp
  | cons a l ih => rw [List.foldl_cons, ih, addTo_eq, List.sum_cons, add_assoc]

theorem divBy_eq (x : Vec d K) (s : K) : divBy x s = s⁻¹ • x := by
  funext i; simp [divBy, mul_comm]

/-- the vertex mean -/
def vmean (l : List (Vec d K)) : Vec d K := ((l.length : K))⁻¹ • l.sum

theorem averageRange_eq (l : List (Vec d K)) (hl : l ≠ []) : averageRangePts l = .ok (vmean l) := by
  have : 0 < l.length := List.length_pos_iff.2 hl
  have e : (fun _ => 0 : Vec d K) = 0 := rfl
  simp only [averageRangePts, this, decide_true, gt_iff_lt, Outcome.assert_true, Outcome.bind_ok]
  rw [e, foldl_addTo, zero_add, divBy_eq]; rfl

theorem averagePack_eq (t : Vec d K) (args : List (Vec d K)) : averagePackPts t args = vmean (t :: args) := by
  unfold averagePackPts vmean
  rw [foldl_addTo, divBy_eq]; simp

theorem vmean_perm {l l' : List (Vec d K)} (h : l.Perm l') : vmean l = vmean l' := by
  unfold vmean; rw [h.length_eq, h.sum_eq]

theorem vmean_map_add [CharZero K] (l : List (Vec d K)) (hl : l ≠ []) (t : Vec d K) :
    vmean (l.map (· + t)) = vmean l + t := by
  have h0 : (l.length : K) ≠ 0 := by
    have := List.length_pos_iff.2 hl
    exact_mod_cast this.ne'
  have hs : (l.map (· + t)).sum = l.sum + (l.length : K) • t := by
    clear hl h0
    induction l with
    | nil => simp
    | cons a l ih => simp only [List.map_cons, List.sum_cons, ih, List.length_cons]; push_cast; module
  unfold vmean
  rw [hs, List.length_map, smul_add, smul_smul, inv_mul_cancel₀ h0, one_smul]

/-- vector of one edge of a 3D chain: `p × q` -/
theorem cross3_apply (a b : Vec 3 K) :
    cross3 a b 0 = a 1 * b 2 - a 2 * b 1 ∧ cross3 a b 1 = a 2 * b 0 - a 0 * b 2 ∧
      cross3 a b 2 = a 0 * b 1 - a 1 * b 0 := ⟨rfl, rfl, rfl⟩

theorem triNormal3_eq (p q m : Vec 3 K) :
    triNormal3 p q m = (1 / 2 : K) • (cross3 p q + (cross3 q m - cross3 p m)) := by
  funext i
  fin_cases i <;> simp [triNormal3, cross3] <;> ring

theorem normalRec_eq (n m : Vec 3 K) (l : List (Vec 3 K)) :
    normalRec n m l = n + pathSum (fun p q => triNormal3 p q m) l := by
  induction l generalizing n with
  | nil => simp [normalRec]
  | cons a l ih =>
    cases l with
    | nil => simp [normalRec]
    | cons b l => rw [normalRec, ih, pathSum_cons_cons, addTo_eq, add_assoc]

/-- a fan of triangle normals does not depend on the apex -/
theorem cyc_triNormal3 (m : Vec 3 K) (l : List (Vec 3 K)) :
    cyc (fun p q => triNormal3 p q m) l = (1 / 2 : K) • cyc cross3 l := by
  have h : cyc (fun p q => triNormal3 p q m) l =
      cyc (fun p q => (1 / 2 : K) • cross3 p q + ((1 / 2 : K) • cross3 q m - (1 / 2 : K) • cross3 p m)) l :=
    cyc_congr l fun p _ q _ => by rw [triNormal3_eq]; module
  rw [h, cyc_add_telescope _ fun x => (1 / 2 : K) • cross3 x m]
  exact cyc_hom (DistribSMul.toAddMonoidHom (Vec 3 K) (1 / 2 : K)) _ l

end Field

end Verif.Geometry
