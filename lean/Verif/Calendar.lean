import Mathlib.Data.Rat.Floor
import Mathlib.Algebra.Order.Round

/-!
# Calendar and Julian dates (astropysics/obstools.py 105-462)

`calendar_to_jd` and `jd_to_calendar`.

Modelling choices.

* Dates are integer triples.  Array arguments are element-wise, so one element is modelled.
* Decimal literals used in the calendar algorithm are written as exact fractions: `365.25*x` is
  `1461*x/4`, `30.6001*k` is `306001*k/10000`, `(b-122.1)/365.25` is `(20*b-2442)/7305`,
  `(b-d)/30.6001` is `10000*(b-d)/306001`, `(z-1867216.25)/36524.25` is `(4*z-7468865)/146097`.
  None of the doubles involved is within 1e-6 of an integer it should not reach, so truncation of
  the double is truncation of the fraction.  `astype(int)` truncates towards zero: `Int.tdiv`.
* The *additions* of day fractions are where doubles really matter (a double near 2451545 has a
  resolution of about 40 microseconds).  The model takes the rounding of a sum as a parameter
  `rnd`: `rnd = id` is exact arithmetic; `rnd = roundTick` (nearest multiple of 2^-31) is IEEE
  double arithmetic for all Julian dates in [2^21, 2^22), i.e. years 1029-6770.
* Time zones, `datetime` packing and the `'fracarray'` output are not modelled here.
-/

namespace Verif.Calendar

/-- A calendar date (year, month, day); years before 1 are astronomical (0 = 1 BC). -/
structure Date where
  year : Int
  month : Int
  day : Int
deriving DecidableEq, Repr

/-- The `gregorian` argument of both functions: `True`, `False`, `None`. -/
inductive Cal where
  | gregorian
  | julian
  | auto
deriving DecidableEq, Repr

/-- obstools.py 423-425: January and February count as months 13, 14 of the year before. -/
def adjust (d : Date) : Date :=
  if d.month < 3 then ⟨d.year - 1, d.month + 12, d.day⟩ else d

/-- obstools.py 427-438: `gregoffset` (applied to the adjusted date).  With `gregorian=None` the
mask is `(yr>1582)&(month>10)&(day>4)`. -/
def gregOffset (c : Cal) (a : Date) : Int :=
  let full := 2 - a.year / 100 + (a.year / 100) / 4
  match c with
  | .gregorian => full
  | .julian => 0
  | .auto => if a.year > 1582 ∧ a.month > 10 ∧ a.day > 4 then full else 0

/-- obstools.py 441-443: `jdn` without its half day: the Julian date of the *noon* of the date, i.e.
`jdn + 12/24`. -/
def dateToJdn (c : Cal) (d : Date) : Int :=
  let a := adjust d
  Int.tdiv (1461 * (a.year + 4716)) 4 + Int.tdiv (306001 * (a.month + 1)) 10000
    + a.day + gregOffset c a - 1524

/-- obstools.py 205-207 / 211-213: the Gregorian correction of the day count. -/
def gregShift (z : Int) : Int :=
  let alpha := Int.tdiv (4 * z - 7468865) 146097
  z + 1 + alpha - alpha / 4

/-- obstools.py 201-213: choice of calendar for day count `z`. -/
def shiftFor (c : Cal) (z : Int) : Int :=
  match c with
  | .gregorian => gregShift z
  | .julian => z
  | .auto => if z ≥ 2299161 then gregShift z else z

/-- obstools.py 215-229: day count to (year, month, day), after the calendar correction. -/
def jdnToDate (c : Cal) (n : Int) : Date :=
  let b := shiftFor c n + 1524
  let cc := Int.tdiv (20 * b - 2442) 7305
  let d := Int.tdiv (1461 * cc) 4
  let e := Int.tdiv (10000 * (b - d)) 306001
  let day := b - d - Int.tdiv (306001 * e) 10000
  let month := if e < 14 then e - 1 else e - 13
  ⟨if month > 2 then cc - 4716 else cc - 4715, month, day⟩

/-! ## Time of day -/

/-- A time of day in whole hours, minutes, seconds and microseconds. -/
structure Time where
  hour : Int
  minute : Int
  second : Int
  micro : Int
deriving DecidableEq, Repr

/-- Rounding to the nearest multiple of 2^-31: what a double in [2^21, 2^22) does to a sum. -/
def roundTick (x : ℚ) : ℚ := (round (x * 2147483648) : ℤ) / 2147483648

/-- obstools.py 270-459, `calendar_to_jd((yr,month,day,hr,min,sec,msec))` for scalar input, without a
time zone and with `mjd=False`.  The additions are left to right, each rounded by `rnd`.
The seventh element (`msec`) is accepted and never used. -/
def calendarToJd (rnd : ℚ → ℚ) (c : Cal) (d : Date) (t : Time) : ℚ :=
  rnd (rnd (rnd ((dateToJdn c d : ℚ) - 1/2 + t.hour / 24) + t.minute / 1440) + t.second / 86400)

/-- obstools.py 335-345: three elements only: the hour defaults to 12, the rest to 0. -/
def calendarToJdNoon (rnd : ℚ → ℚ) (c : Cal) (d : Date) : ℚ :=
  calendarToJd rnd c d ⟨12, 0, 0, 0⟩

/-- obstools.py 450-451: `mjd=True` subtracts `mjdoffset`; 453-454: a scalar `tz` subtracts `tz/24`. -/
def calendarToJdZone (rnd : ℚ → ℚ) (c : Cal) (mjd : Bool) (tz : ℚ) (d : Date) (t : Time) : ℚ :=
  let r := calendarToJd rnd c d t
  let r := if mjd then rnd (r - 4800001/2) else r
  if tz ≠ 0 then rnd (r - tz / 24) else r

/-- obstools.py 105-265, `jd_to_calendar(jd, rounding, 'array', gregorian)` for a scalar `jd` and an
integer `rounding`; `none` is the ValueError (`rounding > 1000000`).  Products are exact. -/
def jdToCalendar (rnd : ℚ → ℚ) (c : Cal) (rounding : Int) (jd : ℚ) : Option (Date × Time) :=
  if rounding > 1000000 then none else
  let jd := if rounding ≤ 0 then rnd (jd + 1/2)
            else rnd (jd + (1/2 + (rounding : ℚ) / 86400000000))
  let z := ⌊jd⌋
  let dec := jd - z
  let date := jdnToDate c z
  if rounding = 1000000 then
    let sec := ⌊dec * 86400⌋
    let min := sec / 60
    let hr := min / 60
    some (date, ⟨hr % 24, (min - 60 * hr) % 60, (sec - 60 * min) % 60, 0⟩)
  else
    let ms := ⌊dec * 86400000000⌋
    let ms := if rounding > 0 then
        let div := (ms / 1000000) * 1000000
        (if ms - div < 2 * rounding then div + rounding else ms) - rounding
      else ms
    let sec := ms / 1000000
    let us := ms - 1000000 * sec
    let min := sec / 60
    let hr := min / 60
    some (date, ⟨hr % 24, (min - 60 * hr) % 60, (sec - 60 * min) % 60, us⟩)

end Verif.Calendar
