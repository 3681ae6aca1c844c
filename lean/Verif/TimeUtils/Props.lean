/-!
# C15: `daysHoursMinutesSeconds`, `ristra/utils/time_utils.h` lines 63-87

`long long` and `int` are unbounded integers here; the parts are bounded by 23/59/59, so
only `days` needs the wide type, and it is no larger than the input.  C++ division and
remainder truncate towards zero: `Int.tdiv`, `Int.tmod`.  `get_wall_time` (27-58, system
clock) is not modelled.
-/

namespace Verif.TimeUtils

/-- the tuple returned, time_utils.h:63-87 -/
structure Parts where
  days : Int
  hours : Int
  minutes : Int
  seconds : Int
deriving Repr, DecidableEq

/-- time_utils.h:63-87 -/
def daysHoursMinutesSeconds (t : Int) : Parts :=
  let hoursRem := t.tmod 86400
  let minutesRem := hoursRem.tmod 3600
  let secondsRem := minutesRem.tmod 60
  ⟨t.tdiv 86400, hoursRem.tdiv 3600, minutesRem.tdiv 60, secondsRem.tdiv 1⟩

/-- The parts add up to the duration. -/
def AddsUp (p : Parts) (t : Int) : Prop :=
  86400 * p.days + 3600 * p.hours + 60 * p.minutes + p.seconds = t

/-- the parts are in range -/
def Canonical (p : Parts) : Prop :=
  0 ≤ p.hours ∧ p.hours < 24 ∧ 0 ≤ p.minutes ∧ p.minutes < 60 ∧ 0 ≤ p.seconds ∧ p.seconds < 60

/-- **C15** Every non-negative duration is decomposed exactly and canonically. -/
theorem C15_decomposition (t : Int) (h : 0 ≤ t) :
    AddsUp (daysHoursMinutesSeconds t) t ∧ Canonical (daysHoursMinutesSeconds t) ∧
      0 ≤ (daysHoursMinutesSeconds t).days := by
  simp only [AddsUp, Canonical, daysHoursMinutesSeconds, Int.tdiv_one]
  have e1 := Int.tmod_eq_emod_of_nonneg (b := 86400) h
  have h1 : 0 ≤ t % 86400 := by omega
  have e2 := Int.tmod_eq_emod_of_nonneg (b := 3600) h1
  have h2 : 0 ≤ t % 86400 % 3600 := by omega
  have e3 := Int.tmod_eq_emod_of_nonneg (b := 60) h2
  rw [e1, e2, e3, Int.tdiv_eq_ediv_of_nonneg h, Int.tdiv_eq_ediv_of_nonneg h1,
    Int.tdiv_eq_ediv_of_nonneg h2]
  omega

example : daysHoursMinutesSeconds 200000 = ⟨2, 7, 33, 20⟩ := by decide

/-- **C15** It is the only canonical decomposition. -/
theorem C15_unique (t : Int) (p : Parts) (h : 0 ≤ t) (ha : AddsUp p t) (hc : Canonical p) :
    p = daysHoursMinutesSeconds t := by
  obtain ⟨ha', hc', _⟩ := C15_decomposition t h
  generalize daysHoursMinutesSeconds t = q at *
  cases p; cases q
  simp only [AddsUp, Canonical, Parts.mk.injEq] at *
  omega

/-- **C15** For negative durations the parts still add up, with every part `≤ 0`. -/
theorem C15_negative (t : Int) (h : t ≤ 0) :
    AddsUp (daysHoursMinutesSeconds t) t ∧
    daysHoursMinutesSeconds t =
      ⟨-(daysHoursMinutesSeconds (-t)).days, -(daysHoursMinutesSeconds (-t)).hours,
       -(daysHoursMinutesSeconds (-t)).minutes, -(daysHoursMinutesSeconds (-t)).seconds⟩ := by
  have e : daysHoursMinutesSeconds t =
      ⟨-(daysHoursMinutesSeconds (-t)).days, -(daysHoursMinutesSeconds (-t)).hours,
       -(daysHoursMinutesSeconds (-t)).minutes, -(daysHoursMinutesSeconds (-t)).seconds⟩ := by
    simp [daysHoursMinutesSeconds, Int.neg_tmod, Int.neg_tdiv]
  refine ⟨?_, e⟩
  have := (C15_decomposition (-t) (by omega)).1
  rw [e]
  simp only [AddsUp] at this ⊢
  omega

example : daysHoursMinutesSeconds (-90061) = ⟨-1, -1, -1, -1⟩ := by decide

end Verif.TimeUtils
