import Verif.LatLong
import Verif.Rotation

/-!
# The built-in celestial frames and their epochs (astropysics/coords/coordsys.py 1110-1204, 1744-1950, 2284-2306, 2422-2438,
2481-2567, 2623-3104, 3105-3156, 3247-3326; coords/funcs.py 30-72)

Exact real arithmetic.  The tabulated series (nutation components, CIO locator, pole positions, sidereal times) are parameters: any
functions of the epoch.  Errors and distances of the coordinates are left out here.
-/

namespace Verif.Frames

noncomputable section

open Real Verif.Angle Verif.LatLong Verif.Rotation

/-- An epoch as Python holds it: an int (from `jd_to_epoch` of a whole year, or a constructor argument) or a float. -/
inductive Epoch
  | int (z : ℤ)
  | flt (r : ℝ)

def Epoch.val : Epoch → ℝ
  | .int z => z
  | .flt r => r

/-- `(a - b)/100` (coordsys.py 2577, 2753, 2868-2869): true division for ints as well, by `from __future__ import division` (70). -/
def centuries (a b : Epoch) : ℝ := (a.val - b.val) / 100

/-- `rotation_matrix(angle, axis)` with a named axis, angle in degrees (utils/alg.py 355-413): never fails. -/
def rot (angle : ℝ) (axis : Axis) : M3 := (rotationMatrixDeg angle axis).getD 0

/-- `rotation_matrix(angle, axis, False)`, angle in radians. -/
def rotR (angle : ℝ) (axis : Axis) : M3 := (rotationMatrix angle axis).getD 0

/-- `ICRSCoordinates.frameBiasJ2000`, coordsys.py 1932-1943. -/
def frameBias : M3 :=
  rot (-(-6.8192) / 3600000) .ex * rot (-16.6170 / 3600000) .ey * rot (-14.6 / 3600000) .ez

/-- `np.polyval`: highest power first. -/
def polyval (p : List ℝ) (t : ℝ) : ℝ := p.foldl (fun acc a => acc * t + a) 0

/-- `_precession_matrix_J2000_Capitaine`, coordsys.py 2284-2305 (`epoch-2000.0` is always a float). -/
def precCapitaine (epoch : Epoch) : M3 :=
  let T := (epoch.val - 2000) / 100
  let zeta := polyval [-0.0000003173, -0.000005971, 0.01801828, 0.2988499, 2306.083227, 2.650545] T / 3600
  let z := polyval [-0.0000002904, -0.000028596, 0.01826837, 1.0927348, 2306.077181, -2.650545] T / 3600
  let theta := polyval [-0.0000001274, -0.000007089, -0.04182264, -0.4294934, 2004.191903, 0] T / 3600
  rot (-z) .ez * rot theta .ey * rot (-zeta) .ez

/-- `obliquity(jd, algorithm)` in degrees, coords/funcs.py 30-72, with `T` centuries since J2000; `none` is the ValueError for an
unknown algorithm. -/
def obliquity (T : ℝ) (algorithm : ℕ) : Option ℝ :=
  if algorithm = 2006 then
    some ((polyval [-0.0000000434, -0.000000576, 0.00200340, -0.0001831, -46.836769, 84381.406] T + 0) / 3600)
  else if algorithm = 2000 then some ((polyval [0.001813, -0.00059, -46.8150, 84381.448] T + -0.02524 * T) / 3600)
  else if algorithm = 1980 then some ((polyval [0.001813, -0.00059, -46.8150, 84381.448] T + 0) / 3600)
  else none

/-- The tabulated series, as functions of the epoch. `nut` is `_nutation_components2000B` (2374-2420: mean obliquity, nutation in
longitude and obliquity, radians), `cio` is the first term of `_CIOLocator` (2568-2612, radians; given the epoch and its
centuries since 2000), `pole` the `polarmotion` callables (2736, 2762-2770), `era` / `gst` / `eqo` the sidereal times in degrees. -/
structure Series where
  nut : ℝ → ℝ × ℝ × ℝ
  cio : ℝ → ℝ → ℝ
  pole : ℝ → ℝ × ℝ
  era : ℝ → ℝ
  gst : ℝ → ℝ
  eqo : ℝ → ℝ

variable (S : Series)

/-- `_nutation_matrix`, coordsys.py 2422-2436. -/
def nutation (epoch : Epoch) : M3 :=
  let (epsa, dpsi, deps) := S.nut epoch.val
  rotR (-(epsa + deps)) .ex * rotR (-dpsi) .ez * rotR epsa .ex

/-- `N*P*B`, the matrix from GCRS to true equatorial coordinates of date (coordsys.py 2535, 2590, 2676). -/
def npb (epoch : Epoch) : M3 := nutation S epoch * precCapitaine epoch * frameBias

/-- The closed form of coordsys.py 2536-2556 from the bottom row (x, y, z) and the locator `s`. -/
def cioMatrix (x y z s : ℝ) : M3 :=
  let bz := 1 / (1 + z)
  let a := 1 - bz * x ^ 2
  let b := -bz * x * y
  let c := -x
  let d := -bz * x * y
  let e := 1 - bz * y ^ 2
  let f := -y
  let g := x
  let h := y
  let i := 1 - bz * (x ^ 2 + y ^ 2)
  let si := sin s
  let co := cos s
  !![a * co - d * si, b * co - e * si, c * co - f * si;
     a * si + d * co, b * si + e * co, c * si + f * co;
     g, h, i]

/-- `_CIOLocator`, coordsys.py 2568-2612: `- x*y/2` is added to the series. -/
def cioLocator (epoch : Epoch) : ℝ :=
  S.cio epoch.val (centuries epoch (.int 2000)) - npb S epoch 2 0 * npb S epoch 2 1 / 2

/-- `CIRSCoordinates._CMatrix`, coordsys.py 2521-2556. -/
def cMatrix : Option Epoch → M3
  | none => frameBias
  | some e => cioMatrix (npb S e 2 0) (npb S e 2 1) (npb S e 2 2) (cioLocator S e)

/-- `EquatorialCoordinatesEquinox._fromGCRS`, coordsys.py 2668-2676. -/
def equinoxMatrix : Option Epoch → M3
  | none => frameBias
  | some e => npb S e

/-- `EquatorialCoordinatesEquinox._toCIRS`, coordsys.py 2681-2692. -/
def equinoxToCirs : Option Epoch → M3
  | none => 1
  | some e => rot (-(S.eqo e.val)) .ez

/-- arcseconds per radian: `180/pi*60*60` (constants.py 149). -/
def asecperrad : ℝ := 180 / π * 60 * 60

/-- `ITRSCoordinates._WMatrix`, coordsys.py 2743-2778: the small angle of `_TIOLocator`, computed in radians, is handed to
`rotation_matrix` as degrees. -/
def wMatrix (e : Epoch) : M3 :=
  let sp := -47e-6 * centuries e (.int 2000) / asecperrad
  rot (-(S.pole e.val).2) .ex * rot (-(S.pole e.val).1) .ey * rot sp .ez

/-- `ITRSCoordinates._fromEqC`, coordsys.py 2804-2818. -/
def itrsFromCirs : Option Epoch → M3
  | none => 1
  | some e => wMatrix S e * rot (S.era e.val) .ez

/-- `ITRSCoordinates._fromEqE`, coordsys.py 2821-2839. -/
def itrsFromEquinox : Option Epoch → M3
  | none => 1
  | some e => wMatrix S e * rot (S.gst e.val) .ez

/-- The three angles of `FK5Coordinates._precessionMatrixJ`, coordsys.py 2868-2880, in degrees: (z, theta, zeta). -/
def fk5Angles (T dt : ℝ) : ℝ × ℝ × ℝ :=
  let temp := 2306.2181 + T * (1.39656 + T * -0.000139)
  let zeta := dt * (temp + dt * ((0.30188 + 0.000344 * T) + dt * 0.017998)) / 3600
  let z := dt * (temp + dt * ((1.09468 + -0.000066 * T) + dt * 0.018203)) / 3600
  let temp := 2004.3109 + T * (-0.85330 + T * -0.000217)
  let theta := dt * (temp + dt * ((-0.42665 + -0.000217 * T) + dt * -0.041833)) / 3600
  (z, theta, zeta)

/-- `FK5Coordinates._precessionMatrixJ`, coordsys.py 2861-2884. -/
def precJ (e1 e2 : Epoch) : M3 :=
  let a := fk5Angles (centuries e1 (.int 2000)) (centuries e2 e1)
  rot (-a.1) .ez * rot a.2.1 .ey * rot (-a.2.2) .ez

/-- The constant matrix of `FK5Coordinates._fromICRS`, coordsys.py 2917-2922. -/
def fk5Bias : M3 :=
  rot (-(-19.9 / 3600000)) .ex * rot (9.1 / 3600000) .ey * rot (-22.9 / 3600000) .ez

/-- `FK5Coordinates._fromICRS`, coordsys.py 2912-2929. -/
def fk5FromIcrs : Option Epoch → M3
  | none => fk5Bias
  | some e => precJ (.int 2000) e * fk5Bias

/-- `FK4Coordinates._precessionMatrixB`, coordsys.py 2979-3013 (`epoch-1850.0` is a float). -/
def precB (e1 e2 : Epoch) : M3 :=
  let t1 := (e1.val - 1850) / 1000
  let t2 := (e2.val - 1850) / 1000
  let dt := t2 - t1
  let zeta := polyval [17.995, 30.240 - 0.27 * t1, 23035.545 + t1 * 139.720 + 0.060 * t1 * t1, 0] dt / 3600
  let z := polyval [18.325, 109.480 + 0.39 * t1, 23035.545 + t1 * 139.720 + 0.060 * t1 * t1, 0] dt / 3600
  let theta := polyval [-41.8, -42.65 - 0.37 * t1, 20051.12 - 85.29 * t1 - 0.37 * t1 * t1, 0] dt / 3600
  rot (-z) .ez * rot theta .ey * rot (-zeta) .ez

/-- Murray's matrix, coordsys.py 3022-3024. -/
def murray : M3 :=
  !![0.9999256794956877, -0.0111814832204662, -0.0048590038153592;
     0.0111814832391717, 0.9999374848933135, -0.0000271625947142;
     0.0048590037723143, -0.0000271702937440, 0.9999881946023742]

/-- The correction terms per century, coordsys.py 3031-3040. -/
def murrayRate : M3 :=
  !![-2.6455262e-9, -1.1539918689e-6, 2.1111346190e-6;
     1.1540628161e-6, -1.29042997e-8, 2.36021478e-8;
     -2.1112979048e-6, -5.6024448e-9, 1.02587734e-8]

/-- The Julian epoch of a Besselian one: `jd_to_epoch(epoch_to_jd(e, False))`, coordsys.py 3027-3028 (obstools.py 464-560).  A whole
Julian year comes back as an int. -/
def julianOf (e : ℝ) : Epoch :=
  let j := 2000 + ((e - 1900) * 365.242198781 + 2415020.31352 - 2451545) / 365.25
  if (⌊j⌋ : ℝ) = j then .int ⌊j⌋ else .flt j

/-- `FK4Coordinates._toFK5`, coordsys.py 3016-3046. -/
def fk4ToFk5 : Option Epoch → M3
  | none => murray
  | some e =>
    if e.val ≠ 1950 then (murray + centuries (julianOf e.val) (.int 1950) • murrayRate) * precB e (.int 1950) else murray

/-- The matrices of `EclipticCoordinatesCIRS._fromEq` and `EclipticCoordinatesEquinox._fromEq`, coordsys.py 3087-3091, 3140-3144;
`algorithm` is `obliqyear`.  An unknown algorithm raises: `none`. -/
def eclipticFromEq (algorithm : ℕ) (e : Epoch) : Option M3 :=
  (obliquity ((e.val - 2000) / 100) algorithm).map fun o => rot o .ex

/-- `_toEq`, coordsys.py 3080-3085, 3133-3138. -/
def eclipticToEq (algorithm : ℕ) (e : Epoch) : Option M3 :=
  (obliquity ((e.val - 2000) / 100) algorithm).map fun o => rot (-o) .ex

/-- The fixed part of the galactic matrices, coordsys.py 3271-3273 and 3288-3290, from the north galactic pole (ra, dec) and the
galactic longitude of the celestial pole. -/
def galPole (ra dec l0 : ℝ) : M3 := rot (180 - l0) .ez * rot (90 - dec) .ey * rot ra .ez

/-- `GalacticCoordinates._fromFK5`, coordsys.py 3265-3276. -/
def galFromFk5 (epoch : Option Epoch) : M3 :=
  galPole 192.859508 27.128336 122.932 * precJ (epoch.getD (.int 2000)) (.int 2000)

/-- `GalacticCoordinates._fromFK4`, coordsys.py 3282-3293. -/
def galFromFk4 (epoch : Option Epoch) : M3 :=
  galPole 192.25 27.4 123 * precB (epoch.getD (.int 1950)) (.int 1950)

/-- `SupergalacticCoordinates._fromGal`, coordsys.py 3318-3325, from the pole (l, b) and the longitude of the origin. -/
def sgalFromGal (pl pb ol : ℝ) : M3 := rot (180 - ol + pl) .ez * rot (90 - pb) .ey * rot pl .ez

/-! ## Objects with an epoch -/

/-- An `EpochalLatLongCoordinates` object, coordsys.py 1744-1767. -/
structure Obj where
  pos : LL
  epoch : Option Epoch

/-- How a class reacts to a change of epoch: `none` for the inertial classes (ICRS 1924-1928, Galactic 3257-3262, Supergalactic
3306-3311), else the matrix its `transformToEpoch` applies. -/
abbrev Kind := Option (Epoch → Epoch → M3)

/-- CIRSCoordinates.transformToEpoch, coordsys.py 2505-2516. -/
def kindCirs : Kind := some fun old new => cMatrix S (some new) * (cMatrix S (some old)).transpose

/-- ITRSCoordinates.transformToEpoch, coordsys.py 2780-2791. -/
def kindItrs : Kind := some fun old new => wMatrix S new * (wMatrix S old).transpose

/-- EquatorialCoordinatesEquinox.transformToEpoch, coordsys.py 2648-2665. -/
def kindEquinox : Kind := some fun old new =>
  (nutation S new * precCapitaine new) * (nutation S old * (precCapitaine old).transpose)

/-- FK5Coordinates.transformToEpoch, coordsys.py 2885-2907. -/
def kindFk5 : Kind := some precJ

/-- FK4Coordinates.transformToEpoch, coordsys.py 2969-2976. -/
def kindFk4 : Kind := some precB

/-- `transformToEpoch(newepoch)` of those classes: rotate when both epochs are given, then store the new epoch
(coordsys.py 1205-1212). -/
def transformToEpoch (k : Kind) (o : Obj) (new : Option Epoch) : Obj :=
  { pos := match k, o.epoch, new with
      | some m, some old, some n => matrixRotate o.pos (m old n)
      | _, _, _ => o.pos
    epoch := new }

/-- `_setEpoch`, coordsys.py 1145-1156, for None or a number (converted by `float`). -/
def setEpoch (k : Kind) (o : Obj) : Option ℝ → Obj
  | none => { o with epoch := none }
  | some v =>
    match o.epoch with
    | none => { o with epoch := some (.flt v) }
    | some _ => transformToEpoch k o (some (.flt v))

/-- `jd_to_epoch(jd, julian)`, obstools.py 464-526: an int when the epoch is a whole year. -/
def jdToEpoch (julian : Bool) (jd : ℝ) : Epoch :=
  let e := if julian then 2000 + (jd - 2451545) / 365.25 else 1900 + (jd - 2415020.31352) / 365.242198781
  if (⌊e⌋ : ℝ) = e then .int ⌊e⌋ else .flt e

/-- `epoch_to_jd(epoch, julian)`, obstools.py 527-566. -/
def epochToJd (julian : Bool) (e : ℝ) : ℝ :=
  if julian then (e - 2000) * 365.25 + 2451545 else (e - 1900) * 365.242198781 + 2415020.31352

/-- `_setJdepoch`, coordsys.py 1187-1189: the epoch is stored without a transformation. -/
def setJdepoch (julian : Bool) (o : Obj) (jd : ℝ) : Obj := { o with epoch := some (jdToEpoch julian jd) }

/-- `_getJdepoch`, coordsys.py 1184-1186; without an epoch numpy raises TypeError (`none`). -/
def getJdepoch (julian : Bool) (o : Obj) : Option ℝ := o.epoch.map fun e => epochToJd julian e.val

/-- The calls that change the epoch. -/
inductive Op
  | epoch (v : Option ℝ)
  | jdepoch (jd : ℝ)

def step (k : Kind) (julian : Bool) (o : Obj) : Op → Obj
  | .epoch v => setEpoch k o v
  | .jdepoch jd => setJdepoch julian o jd

/-! ## Conversions -/

/-- `_smatrix(m, coord, tocls)`, coordsys.py 1525-1534: a fresh object of the target class (with its longitude range and its default
epoch) that takes the latitude and longitude and is then rotated. -/
def smatrix (longrange : Option Range) (default : Option Epoch) (m : M3) (o : Obj) : Obj :=
  ⟨matrixRotate (setLong (setLat (fresh longrange) o.pos.lat.val) o.pos.long.val) m, default⟩

/-- A class as a conversion target: its longitude range and the epoch of a fresh object. -/
structure Cls where
  longrange : Option Range
  default : Option Epoch

/-- One registered 'smatrix' transform: target class and matrix as a function of the epoch of the object it is called on. -/
structure Leg where
  target : Cls
  mat : Option Epoch → M3

/-- `CoordinateSystem.convert` along a path, coordsys.py 1098-1108: each leg is called on the object the previous one returned. -/
def follow : Obj → List Leg → Obj
  | o, [] => o
  | o, l :: ls => follow (smatrix l.target.longrange l.target.default (l.mat o.epoch) o) ls

/-- `EpochalLatLongCoordinates.convert` to another epochal class, coordsys.py 1779-1785: the result gets the epoch of the original. -/
def convert (o : Obj) (path : List Leg) : Obj := { follow o path with epoch := o.epoch }

/-- Longitude range and default epoch of the built-in classes: (0,360) except ITRS (coordsys.py 2734) with (-180,180); default epoch
2000.0 for the equatorial classes (1882, through `float`), 1950.0 for FK4 (2967-2968), 2000 for the ecliptic ones (3071, 3124), None for
the others (1761). -/
def eqCls : Cls := ⟨some ⟨0, 2 * π, some 0⟩, some (.flt 2000)⟩
def fk4Cls : Cls := ⟨some ⟨0, 2 * π, some 0⟩, some (.flt 1950)⟩
def eclCls : Cls := ⟨some ⟨0, 2 * π, some 0⟩, some (.int 2000)⟩
def galCls : Cls := ⟨some ⟨0, 2 * π, some 0⟩, none⟩
def itrsCls : Cls := ⟨some ⟨-π, π, some 0⟩, none⟩

end

end Verif.Frames
