import Verif.Angle
import Mathlib.Analysis.SpecialFunctions.Complex.Arg
import Mathlib.LinearAlgebra.Matrix.Notation
import Mathlib.Data.Matrix.Mul

/-!
# `LatLongCoordinates` and `RectangularCoordinates` (astropysics/coords/coordsys.py 1212-1275, 1292-1635)

Exact real arithmetic.  Errors (`laterr`, `longerr`) and distances are left out; `matrixRotate` is modelled with its default
arguments.
-/

namespace Verif.LatLong

noncomputable section

open Real Verif.Angle

/-- `_lat` and `_long` (coordsys.py 1318). -/
structure LL where
  lat : AC
  long : AC

/-- The range every latitude is created with: (-90, 90, 360) degrees (coordsys.py 1329). -/
def latRange : Range := ⟨-(π / 2), π / 2, some (2 * π)⟩

/-- `__init__` before the values are assigned: zero angles with the latitude range and the class's longitude range
(coordsys.py 1329-1330; `_longrange_` in radians). -/
def fresh (longrange : Option Range) : LL := ⟨⟨0, some latRange⟩, ⟨0, longrange⟩⟩

/-- `_setLat`, coordsys.py 1406-1416, for an angle of `x` radians. The range check never raises for `latRange`. -/
def setLat (c : LL) (x : ℝ) : LL :=
  let rads := pymod x (2 * π)
  let rads := if rads > 3 * π / 2 then rads - 2 * π else if rads > π / 2 then π - rads else rads
  { c with lat := (setRadians c.lat rads).1 }

/-- `_setLong`, coordsys.py 1424-1428. -/
def setLong (c : LL) (x : ℝ) : LL := { c with long := (setRadians c.long (pymod x (2 * π))).1 }

/-- `LatLongCoordinates(long, lat)`, coordsys.py 1324-1346, angles in radians. -/
def construct (longrange : Option Range) (long lat : ℝ) : LL := setLong (setLat (fresh longrange) lat) long

/-- The local function `haversin` of `__sub__`, coordsys.py 1498. -/
def haversin (t : ℝ) : ℝ := if π / 4 < pymod t π ∧ pymod t π < 3 * π / 4 then (1 - cos t) / 2 else sin (t / 2) ^ 2

/-- `__sub__`, coordsys.py 1485-1513: the separation in radians (it is wrapped in an AngularSeparation of `degrees(sep)`). -/
def sub (p q : LL) : ℝ :=
  let b1 := p.lat.val
  let b2 := q.lat.val
  let db := |b2 - b1|
  let dl := |q.long.val - p.long.val|
  let hdb := haversin db
  let hdl := haversin dl
  let havsep := hdb + cos b1 * cos b2 * hdl
  if 1/4 < havsep ∧ havsep ≤ 3/4 then arccos (1 - 2 * havsep) else 2 * arcsin (√havsep)

/-- `math.atan2`: the argument of the point (x, y); signed zeros are not modelled. -/
def atan2 (y x : ℝ) : ℝ := Complex.arg ⟨x, y⟩

/-- The position vector computed in `matrixRotate`, coordsys.py 1579-1587. -/
def cart (lat long : ℝ) : Fin 3 → ℝ := ![cos lat * cos long, cos lat * sin long, sin lat]

/-- The numbers (latp, longp) `matrixRotate` computes and returns, coordsys.py 1575-1625, with `fixrange=True`. -/
def rotated (m : Matrix (Fin 3) (Fin 3) ℝ) (lat long : ℝ) : ℝ × ℝ :=
  let v' := m.mulVec (cart lat long)
  let xp := v' 0
  let yp := v' 1
  let zp := v' 2
  let sp := √(xp * xp + yp * yp)
  let latp := atan2 zp sp
  let longp := atan2 yp xp
  let ao := (latp + π / 2) / (2 * π)
  let latp := 2 * π * |ao - ⌊ao + 1/2⌋| - π / 2
  let longp := pymod longp (2 * π)
  (latp, longp)

/-- `matrixRotate(m)`, coordsys.py 1536-1634, with the default arguments and no errors: the results are assigned to the
`radians` of the two angles. -/
def matrixRotate (c : LL) (m : Matrix (Fin 3) (Fin 3) ℝ) : LL :=
  let r := rotated m c.lat.val c.long.val
  ⟨(setRadians c.lat r.1).1, (setRadians c.long r.2).1⟩

/-- `RectangularCoordinates`, coordsys.py 1212-1228. -/
structure Rect where
  x : ℝ
  y : ℝ
  z : ℝ

/-- `_getLength`, coordsys.py 1262-1264. -/
def Rect.length (r : Rect) : ℝ := √(r.x ^ 2 + r.y ^ 2 + r.z ^ 2)

/-- `_setLength`, coordsys.py 1265-1269; dividing by a zero length raises ZeroDivisionError (`none`). -/
def Rect.setLength (r : Rect) (val : ℝ) : Option Rect :=
  if r.length = 0 then none
  else
    let scaling := val / r.length
    some ⟨r.x * scaling, r.y * scaling, r.z * scaling⟩

/-- `__add__` and `__sub__`, coordsys.py 1242-1260. -/
def Rect.add (r s : Rect) : Rect := ⟨r.x + s.x, r.y + s.y, r.z + s.z⟩
def Rect.sub (r s : Rect) : Rect := ⟨r.x - s.x, r.y - s.y, r.z - s.z⟩

end

end Verif.LatLong
