import Verif.Common.Outcome
import Mathlib.Analysis.Real.Sqrt
import Mathlib.Data.Rat.Floor

/-!
# Model of `ristra/elements/elements.cc`: quadrature rules, lines 9-525

Numbers are reals: rounding is not modelled, but the decimal constants are as written.  `int` is
`Int` without overflow.  An uninitialised local is `none`, and reading it is undefined behaviour, as
is reading past the end of a table.  The vectors the functions fill are functions from indices to
numbers and are taken to have the sizes the functions index.
-/

namespace Verif.Quadrature

/-- `a[m]` of a local array -/
def at' (l : List ℝ) (m : Int) : Outcome ℝ :=
  if 0 ≤ m then (match l[m.toNat]? with | some v => .ok v | none => .ub) else .ub

/-- what a line rule leaves in `x`, `w` and `m`, all passed by reference; elements.cc:10-217 -/
structure Line where
  x : Option ℝ
  w : Option ℝ
  m : Int

/-- `{x=g[m];w=v[m];}` -/
def pick (g v : List ℝ) (m : Int) : Outcome Line := do
  let x ← at' g m
  let w ← at' v m
  return ⟨some x, some w, m⟩

/-- `LineGaussRuleInfo`, elements.cc:10-111 -/
noncomputable def lineGauss (s : Line) (p : Int) : Outcome Line :=
  let m := s.m - 1
  let g20 : ℝ := -1.0 / Real.sqrt 3.0
  let g2 := [g20, -1.0 * g20]
  let w30 : ℝ := 5.0 / 9.0
  let w3 := [w30, 8.0 / 9.0, w30]
  let g30 : ℝ := -Real.sqrt (3.0 / 5.0)
  let g3 := [g30, 0.0, -1.0 * g30]
  let w40 : ℝ := 1. / 2. - Real.sqrt (5. / 6.) / 6.
  let w41 : ℝ := 1. / 2. + Real.sqrt (5. / 6.) / 6.
  let w4 := [w40, w41, w41, w40]
  let g40 : ℝ := -Real.sqrt ((3. + 2. * Real.sqrt (6. / 5.)) / 7.)
  let g41 : ℝ := -Real.sqrt ((3. - 2. * Real.sqrt (6. / 5.)) / 7.)
  let g4 := [g40, g41, -g41, -g40]
  let w50 : ℝ := (322. - 13. * Real.sqrt 70.) / 900.
  let w51 : ℝ := (322. + 13. * Real.sqrt 70.) / 900.
  let w5 := [w50, w51, 512. / 900., w51, w50]
  let g50 : ℝ := -Real.sqrt (5. + 2. * Real.sqrt (10. / 7.)) / 3.
  let g51 : ℝ := -Real.sqrt (5. - 2. * Real.sqrt (10. / 7.)) / 3.
  let g5 := [g50, g51, 0.0, -g51, -g50]
  let w60 : ℝ := 0.1713244923791704
  let w61 : ℝ := 0.3607615730481386
  let w62 : ℝ := 0.4679139345726910
  let w6 := [w60, w61, w62, w62, w61, w60]
  let g60 : ℝ := -0.9324695142031521
  let g61 : ℝ := -0.6612093864662645
  let g62 : ℝ := -0.2386191860831969
  let g6 := [g60, g61, g62, -g62, -g61, -g60]
  let w70 : ℝ := 0.1294849661688697
  let w71 : ℝ := 0.2797053914892766
  let w72 : ℝ := 0.3818300505051189
  let w7 := [w70, w71, w72, 0.4179591836734694, w72, w71, w70]
  let g70 : ℝ := -0.9491079123427585
  let g71 : ℝ := -0.7415311855993945
  let g72 : ℝ := -0.4058451513773972
  let g7 := [g70, g71, g72, 0.0, -g72, -g71, -g70]
  let w80 : ℝ := 0.1012285362903763
  let w81 : ℝ := 0.2223810344533745
  let w82 : ℝ := 0.3137066458778873
  let w83 : ℝ := 0.3626837833783620
  let w8 := [w80, w81, w82, w83, w83, w82, w81, w80]
  let g80 : ℝ := -0.9602898564975363
  let g81 : ℝ := -0.7966664774136267
  let g82 : ℝ := -0.5255324099163290
  let g83 : ℝ := -0.1834346424956498
  let g8 := [g80, g81, g82, g83, -g83, -g82, -g81, -g80]
  if p = 1 then .ok ⟨some 0.0, some 2.0, m⟩
  else if p = 2 then pick g2 [1.0, 1.0] m
  else if p = 3 then pick g3 w3 m
  else if p = 4 then pick g4 w4 m
  else if p = 5 then pick g5 w5 m
  else if p = 6 then pick g6 w6 m
  else if p = 7 then pick g7 w7 m
  else if p = 8 then pick g8 w8 m
  else .ok { s with m := m }

/-- `LineLobattoRuleInfo`, elements.cc:114-219 -/
noncomputable def lineLobatto (s : Line) (p : Int) : Outcome Line :=
  let m := s.m - 1
  let L2 : List ℝ := [-1.0, 1.0]
  let w30 : ℝ := 1.0 / 3.0
  let w3 := [w30, 4.0 / 3.0, w30]
  let L3 : List ℝ := [1.0, 0.0, -1.0]
  let w40 : ℝ := 0.1666666666666666666667
  let w41 : ℝ := 0.8333333333333333333333
  let w4 := [w40, w41, w41, w40]
  let L40 : ℝ := -1.0
  let L41 : ℝ := -0.447213595499957939282
  let L4 := [L40, L41, -L41, -L40]
  let L50 : ℝ := -1.0
  let L51 : ℝ := -0.6546536707079771437983
  let L5 := [L50, L51, 0.0, -L51, -L50]
  let w50 : ℝ := 0.1
  let w51 : ℝ := 0.544444444444444444444
  let w5 := [w50, w51, 0.7111111111111111111111, w51, w50]
  let L60 : ℝ := -1.0
  let L61 : ℝ := -0.765055323929464692851
  let L62 : ℝ := -0.2852315164806450963142
  let L6 := [L60, L61, L62, -L62, -L61, -L60]
  let w60 : ℝ := 0.06666666666666666666667
  let w61 : ℝ := 0.3784749562978469803166
  let w62 : ℝ := 0.5548583770354863530167
  let w6 := [w60, w61, w62, w62, w61, w60]
  let L70 : ℝ := -1.0
  let L71 : ℝ := -0.830223896278566929872
  let L72 : ℝ := -0.4688487934707142138038
  let L7 := [L70, L71, L72, 0.0, -L72, -L71, -L70]
  let w70 : ℝ := 0.04761904761904761904762
  let w71 : ℝ := 0.276826047361565948011
  let w72 : ℝ := 0.4317453812098626234179
  let w7 := [w70, w71, w72, 0.487619047619047619048, w72, w71, w70]
  let L80 : ℝ := -1.0
  let L81 : ℝ := -0.8717401485096066153375
  let L82 : ℝ := -0.5917001814331423021445
  let L83 : ℝ := -0.2092992179024788687687
  let L8 := [L80, L81, L82, L83, -L83, -L82, -L81, -L80]
  let w80 : ℝ := 0.03571428571428571428571
  let w81 : ℝ := 0.210704227143506039383
  let w82 : ℝ := 0.3411226924835043647642
  let w83 : ℝ := 0.4124587946587038815671
  let w8 := [w80, w81, w82, w83, w83, w82, w81, w80]
  if p = 1 then .ok ⟨some 0.0, some 2.0, m⟩
  else if p = 2 then pick L2 [1.0, 1.0] m
  else if p = 3 then pick L3 w3 m
  else if p = 4 then pick L4 w4 m
  else if p = 5 then pick L5 w5 m
  else if p = 6 then pick L6 w6 m
  else if p = 7 then pick L7 w7 m
  else if p = 8 then pick L8 w8 m
  else .ok { s with m := m }

/-- the line rule a function calls; called in elements.cc:222-525 -/
abbrev Rule := Line → Int → Outcome Line

/-- the vectors that are filled: `these_g_pts`, `these_weights`, `tot_g_weight`; elements.cc:222-228 -/
structure Out where
  pts : Nat → Nat → ℝ
  wts : Nat → Nat → ℝ
  tot : Nat → ℝ

/-- `a[m][d] = v;` -/
def set2 (a : Nat → Nat → ℝ) (m d : Nat) (v : ℝ) : Nat → Nat → ℝ :=
  Function.update a m (Function.update (a m) d v)

/-- reading a local -/
def read (v : Option ℝ) : Outcome ℝ := match v with | some v => .ok v | none => .ub

/-- one direction, e.g. elements.cc:244-246: call the line rule, store the point, multiply the weight -/
noncomputable def direction (rule : Rule) (q : Int) (m d : Nat) (i : Int) (st : Out × Option ℝ × Option ℝ) :
    Outcome (Out × Option ℝ × Option ℝ) := do
  let (o, x, w) := st
  let r ← rule ⟨x, w, i⟩ q
  let xv ← read r.x
  let wv ← read r.w
  return ({ o with pts := set2 o.pts m d xv, wts := set2 o.wts m d (o.wts m d * wv) }, r.x, r.w)

/-- `for (m = 0; m < n; m++)` -/
def loopM {σ : Type} (n : Nat) (body : σ → Nat → Outcome σ) (s : σ) : Outcome σ :=
  (List.range n).foldlM body s

/-- `these_weights[m] = {1.0, ...};`: a vector of `D` ones; what lies past its end is not in it;
elements.cc:241, 291, 358, 403, 445, 501 -/
def ones (D : Nat) (d : Nat) : ℝ := if d < D then 1.0 else 0

/-- the total weights, elements.cc:254-258 (`D = 2`) and 311-316 (`D = 3`) -/
noncomputable def totals (D n : Nat) (o : Out) : Out :=
  { o with tot := (List.range n).foldl (fun t v => Function.update t v
      ((List.range D).foldl (fun a d => if d = 0 then o.wts v d else a * o.wts v d) 0)) o.tot }

/-- the indices in elements.cc:238-239 (and 400-401) -/
def indices2 (q m : Int) : Int × Int :=
  let j := m.tdiv q + 1
  let i := (m + 1) - q * (j - 1)
  (i, j)

/-- the loop of `Gauss2D`, elements.cc:231-252, and of `Lobatto2D`, elements.cc:385-417 -/
noncomputable def rule2 (rule : Rule) (o : Out) (q : Nat) : Outcome Out :=
  loopM (q * q) (fun o m => do
    let (i, j) := indices2 q m
    let o := { o with wts := Function.update o.wts m (ones 2) }
    let st ← direction rule q m 0 i (o, none, none)
    let st ← direction rule q m 1 j st
    return st.1) o

/-- `Gauss2D`, elements.cc:222-262 -/
noncomputable def gauss2D (o : Out) (q : Nat) : Outcome Out := do
  let o ← rule2 lineGauss o q
  return totals 2 (q * q) o

/-- `Lobatto2D`, elements.cc:385-417 -/
noncomputable def lobatto2D (o : Out) (q : Nat) : Outcome Out := rule2 lineLobatto o q

/-- the indices in elements.cc:282-289 (and 436-443) -/
def indices3 (q m : Int) : Int × Int × Int :=
  let p12 := q * q
  let k := m.tdiv p12 + 1
  let jj := (m + 1) - p12 * (k - 1)
  let j := (jj - 1).tdiv q + 1
  let i := jj - q * (j - 1)
  (i, j, k)

/-- the loop of `Gauss3D`, elements.cc:275-308, and of `Lobatto3D`, elements.cc:420-463 -/
noncomputable def rule3 (rule : Rule) (o : Out) (q : Nat) : Outcome Out :=
  loopM (q * q * q) (fun o m => do
    let (i, j, k) := indices3 q m
    let o := { o with wts := Function.update o.wts m (ones 3) }
    let st ← direction rule q m 0 i (o, none, none)
    let st ← direction rule q m 1 j st
    let st ← direction rule q m 2 k st
    return st.1) o

/-- `Gauss3D`, elements.cc:265-319 -/
noncomputable def gauss3D (o : Out) (q : Nat) : Outcome Out := do
  let o ← rule3 lineGauss o q
  return totals 3 (q * q * q) o

/-- `Lobatto3D`, elements.cc:420-463 -/
noncomputable def lobatto3D (o : Out) (q : Nat) : Outcome Out := rule3 lineLobatto o q

/-- conversion of a floating value to `int`: toward zero -/
def toInt (r : ℚ) : Int := if 0 ≤ r then ⌊r⌋ else ⌈r⌉

/-- the indices in elements.cc:340-356 (and 484-499); `a`, `b` and the quotients are floating -/
def indices4 (q m dim : Int) : Int × Int × Int × Int :=
  let a : ℚ := (q : ℚ) ^ (dim - 1)
  let b : ℚ := (q : ℚ) ^ (dim - 2)
  let l := toInt (⌊(m : ℚ) / a⌋ + 1)
  let kk := toInt ((m + 1) - a * (l - 1))
  let k := toInt (⌊((kk : ℚ) - 1) / b⌋ + 1)
  let jj := toInt ((m + 1) - b * (k - 1) - a * (l - 1))
  let j := (jj - 1).tdiv q + 1
  let i := jj - q * (j - 1)
  (i, j, k, l)

/-- the loop of `Gauss4D`, elements.cc:322-382, and of `Lobatto4D`, elements.cc:466-524 -/
noncomputable def rule4 (rule : Rule) (o : Out) (q : Nat) (dim : Int) : Outcome Out :=
  loopM (q * q * q * q) (fun o m => do
    let (i, j, k, l) := indices4 q m dim
    let o := { o with wts := Function.update o.wts m (ones 4) }
    let st ← direction rule q m 0 i (o, none, none)
    let st ← direction rule q m 1 j st
    let st ← direction rule q m 2 k st
    let st ← direction rule q m 3 l st
    return st.1) o

/-- `Gauss4D`, elements.cc:322-382 -/
noncomputable def gauss4D (o : Out) (q : Nat) (dim : Int) : Outcome Out := rule4 lineGauss o q dim

/-- `Lobatto4D`, elements.cc:466-524 -/
noncomputable def lobatto4D (o : Out) (q : Nat) (dim : Int) : Outcome Out := rule4 lineLobatto o q dim

end Verif.Quadrature
