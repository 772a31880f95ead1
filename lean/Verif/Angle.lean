import Mathlib.Analysis.SpecialFunctions.Trigonometric.Inverse
import Mathlib.Algebra.Order.Round

/-!
# `AngularCoordinate` (astropysics/coords/coordsys.py 95-596)

Angles are modelled over the real numbers: the code computes the same formulas in double precision.  Attributes:
`_decval` (radians) and `_range` (a triple in radians or None).  Numbers passed by the user (degrees, hours, tuples)
are arbitrary reals; NaN, infinities and `None`/non-numeric inputs are not modelled.
-/

namespace Verif.Angle

noncomputable section

open Real

/-- The exceptions an assignment can raise. -/
inductive Err
  | value      -- ValueError
  | zeroDiv    -- ZeroDivisionError
  | type       -- TypeError
  deriving DecidableEq

/-- `_range`: (low, up, cycle) in radians; coordsys.py 351-380. -/
structure Range where
  low : ℝ
  up : ℝ
  cycle : Option ℝ

/-- An angle object: `_decval` and `_range` (coordsys.py 105). -/
structure AC where
  val : ℝ
  range : Option Range

/-- Python's float `%` for a nonzero divisor: result has the sign of the divisor. -/
def pymod (x y : ℝ) : ℝ := x - y * ⌊x / y⌋

/-- Python's `int(x)`: truncation towards zero. -/
def pyint (x : ℝ) : ℤ := if x < 0 then ⌈x⌉ else ⌊x⌋

/-- `math.radians` and the literal `deg*pi/180.` of `_setDecdeg`; coordsys.py 295, 371. -/
def rad (deg : ℝ) : ℝ := deg * π / 180

/-- The triangle wave of `_checkRange`, coordsys.py 341-345 (called with `low ≠ up`). -/
def triangle (low up cycle rads : ℝ) : ℝ :=
  (up - low) * (arcsin (sin (π * (2 * rads / cycle + (low / (low - up) - 1/2)))) / π + 1/2) + low

/-- `_checkRange`, coordsys.py 329-350. -/
def checkRange (r : Option Range) (rads : ℝ) : Except Err ℝ :=
  match r with
  | none => .ok rads
  | some r =>
    match r.cycle with
    | none => if r.low ≤ rads ∧ rads ≤ r.up then .ok rads else .error .value
    | some c =>
      if 0 < c then
        if r.low - r.up = 0 then .error .zeroDiv else .ok (triangle r.low r.up c rads)
      else
        if r.up - r.low = 0 then .error .zeroDiv else .ok (pymod (rads - r.low) (r.up - r.low) + r.low)

/-- An assignment: the object afterwards and the exception raised, if any. -/
abbrev Res := AC × Option Err

/-- `_setRad`, coordsys.py 306-309. -/
def setRadians (a : AC) (rads : ℝ) : Res :=
  match checkRange a.range rads with
  | .ok v => ({ a with val := v }, none)
  | .error e => (a, some e)

/-- `_setDecdeg`, coordsys.py 294-298. -/
def setDegrees (a : AC) (deg : ℝ) : Res := setRadians a (deg * π / 180)

/-- `_setDechr`, coordsys.py 317-321. -/
def setHours (a : AC) (hr : ℝ) : Res := setRadians a (hr * π / 12)

/-- `_getDecdeg`, coordsys.py 299-300. -/
def degrees (a : AC) : ℝ := a.val * 180 / π

/-- `_getDechr`, coordsys.py 322-323. -/
def hours (a : AC) : ℝ := a.val * 12 / π

/-- `_setDegminsec`, coordsys.py 258-263 (for a 3-tuple of numbers). The sign is applied to the stored value after the range
check. -/
def setDms (a : AC) (d m s : ℝ) : Res :=
  match setDegrees a (|d| + |m| / 60 + |s| / 3600) with
  | (a', none) => (if d < 0 then { a' with val := a'.val * (-1) } else a', none)
  | (a', some e) => (a', some e)

/-- `_getDegminsec`, coordsys.py 264-270. -/
def getDms (a : AC) : ℤ × ℤ × ℝ :=
  let fulldeg := |degrees a|
  let deg := pyint fulldeg
  let fracpart := fulldeg - deg
  let min := pyint (fracpart * 60)
  let sec := fracpart * 3600 - min * 60
  (if degrees a < 0 then -deg else deg, min, sec)

/-- `_setHrsminsec`, coordsys.py 277-280. -/
def setHms (a : AC) (h m s : ℝ) : Res := setDegrees a (15 * (h + m / 60 + s / 3600))

/-- `_getHrsminsec`, coordsys.py 281-287. -/
def getHms (a : AC) : ℤ × ℤ × ℝ :=
  let factorized := degrees a / 15
  let hrs := pyint factorized
  let mspart := factorized - hrs
  let min := pyint (mspart * 60)
  let sec := mspart * 3600 - min * 60
  (hrs, min, sec)

/-- What the user can assign to `range` (numbers in degrees). -/
inductive RangeArg
  | none                                          -- None
  | pair (low up : ℝ)                             -- a 2-sequence
  | triple (low up : ℝ) (cycle : Option ℝ)        -- a 3-sequence
  | bad                                           -- a sequence of another length

/-- The three numbers a range argument stands for, in degrees: a pair gets cycle 0 if it is a full turn, otherwise None
(coordsys.py 359-367). -/
def RangeArg.toTriple : RangeArg → Option (ℝ × ℝ × Option ℝ)
  | .none => Option.none
  | .bad => Option.none
  | .pair lo up => some (lo, up, if up - lo = 360 then some 0 else Option.none)
  | .triple lo up c => some (lo, up, c)

/-- `self._range = newrng; self._decval = self._checkRange(self._decval)` with the handler for ValueError
(coordsys.py 373-380): only a ValueError restores the old range. -/
def installRange (a : AC) (r : Option Range) : Res :=
  match checkRange r a.val with
  | .ok v => ({ val := v, range := r }, none)
  | .error .value => (a, some .value)
  | .error e => ({ a with range := r }, some e)

/-- `_setRange`, coordsys.py 351-380. -/
def setRange (a : AC) (x : RangeArg) : Res :=
  match x with
  | .none => installRange a Option.none
  | .bad => (a, some .type)
  | x =>
    match x.toTriple with
    | Option.none => (a, some .type)
    | some (lo, up, c) =>
      if lo > up then (a, some .value)
      else installRange a (some ⟨rad lo, rad up, c.map rad⟩)

/-- The assignments of the API (`radians`/`r`, `degrees`/`d`, `hours`/`h`, `degminsec`/`dms`, `hrsminsec`/`hms`, `range`). -/
inductive Op
  | radians (x : ℝ)
  | degrees (x : ℝ)
  | hours (x : ℝ)
  | dms (d m s : ℝ)
  | hms (h m s : ℝ)
  | range (x : RangeArg)

def step (a : AC) : Op → Res
  | .radians x => setRadians a x
  | .degrees x => setDegrees a x
  | .hours x => setHours a x
  | .dms d m s => setDms a d m s
  | .hms h m s => setHms a h m s
  | .range x => setRange a x

/-- A history; an assignment that raises is caught by the caller and the object keeps whatever state it was left in. -/
def run (a : AC) : List Op → AC
  | [] => a
  | op :: ops => run (step a op).1 ops

/-- `AngularCoordinate(x, range=rng)` for a number of degrees (coordsys.py 197-256): the value is stored, then the range
is assigned. An exception leaves no object. -/
def construct (deg : ℝ) (rng : RangeArg) : Except Err AC :=
  match setRange ⟨rad deg, none⟩ rng with
  | (a, none) => .ok a
  | (_, some e) => .error e

/-- `__add__` with another angle (coordsys.py 416-423): a fresh object without range. -/
def add (a b : AC) : AC := ⟨a.val + b.val, none⟩

/-- `AngularSeparation(start, end)` with numbers in degrees (coordsys.py 608-637): their difference in degrees becomes the value. -/
def sepOfDegrees (start stop : ℝ) : AC := ⟨rad (stop - start), none⟩

/-- `AngularSeparation(start, end)` with two angle objects (coordsys.py 628-637): the `_decval`s, in radians, are subtracted, and
the difference is then interpreted as degrees by `AngularCoordinate.__init__`. -/
def sepOfAngles (start stop : AC) : AC := ⟨rad (stop.val - start.val), none⟩

/-- `__sub__` of two angles (coordsys.py 425-433): both are converted to degrees first. -/
def sub (a b : AC) : AC := sepOfDegrees (b.val * 180 / π) (a.val * 180 / π)

/-! ## Strings -/

/-- The components printed by `getDmsStr`: the sign is '-', the degrees, the minutes and the seconds, the latter in units of
`10^-p`. -/
structure Printed where
  neg : Bool
  deg : ℤ
  min : ℤ
  sec : ℤ

/-- `getDmsStr` (coordsys.py 458-523) with a seconds format of `p` decimals (`'%05.2f'`: `p = 2`), before the separators are
inserted.  `rnd` is the rounding to an integer done by the `%` operator: `secform % s` denotes `rnd (s * 10^p) / 10^p`.
`int(float(s)) >= 60` holds exactly if the printed number is at least 60. -/
def getDmsStr (rnd : ℝ → ℤ) (p : ℕ) (a : AC) : Printed :=
  let (d, m, s) := getDms a
  let k := rnd (s * 10 ^ p)
  let (d, m, k) :=
    if k ≥ 60 * 10 ^ p then
      if m + 1 = 60 then (d + 1, 0, rnd 0) else (d, m + 1, rnd 0)
    else (d, m, k)
  ⟨decide (a.val < 0), |d|, m, k⟩

/-- The components printed by `getHmsStr` (coordsys.py 525-596) with a seconds format of `p` decimals: hours, minutes, and
seconds in units of `10^-p`, each with its own sign. -/
def getHmsStr (rnd : ℝ → ℤ) (p : ℕ) (a : AC) : ℤ × ℤ × ℤ :=
  let (h, m, s) := getHms a
  let k := rnd (s * 10 ^ p)
  if k ≥ 60 * 10 ^ p then
    let k' := rnd (((k : ℝ) / 10 ^ p - 60) * 10 ^ p)
    if m + 1 = 60 then
      if h + 1 = 24 then (0, 0, k') else (h + 1, 0, k')
    else (h, m + 1, k')
  else (h, m, k)

end

end Verif.Angle
