import Verif.Frames
import Verif.FramesProps

/-!
# Rectangular and spherical frames with distances (coords/coordsys.py 674-726, 1348-1404, 1901-2280, 3157-3246)

Exact real arithmetic.  The position of the Earth is a parameter, a function of the epoch.  Distances given as callables are left out.
-/

namespace Verif.RectFrames

noncomputable section

open Real Verif.Angle Verif.LatLong Verif.Rotation Verif.Frames

/-- `unit`: 'au' or 'pc'. -/
inductive Unit
  | au | pc
deriving DecidableEq

/-- `auperpc` of constants.py 150: arcseconds per radian. -/
def auperpc : ℝ := asecperrad

/-- `cmperpc` and `cmperau`, constants.py 143-147. -/
def cmperpc : ℝ := 3.08568025e18
def cmperau : ℝ := 1.49597887e13

/-- A `RectangularICRSCoordinates` or `RectangularGCRSCoordinates`, coordsys.py 1966-1970, 2122-2126. -/
structure RObj where
  x : ℝ
  y : ℝ
  z : ℝ
  epoch : Option Epoch
  unit : Option Unit

/-- What can be assigned to `unit`. -/
inductive UnitArg
  | none
  | unit (u : Unit)
  | other

inductive Err
  | value | zeroDivision | type | attribute
deriving DecidableEq

/-- `_setUnit`, coordsys.py 1993-2014 and 2149-2170. -/
def setUnit (r : RObj) : UnitArg → Except Err RObj
  | .none => .ok { r with unit := none }
  | .unit u =>
    match r.unit, u with
    | none, u => .ok { r with unit := some u }
    | some .pc, .au => .ok { r with x := r.x * auperpc, y := r.y * auperpc, z := r.z * auperpc, unit := some .au }
    | some .au, .au => .ok r
    | some .au, .pc => .ok { r with x := r.x / auperpc, y := r.y / auperpc, z := r.z / auperpc, unit := some .pc }
    | some .pc, .pc => .ok r
  | .other => .error .value

/-- `RectangularCoordinates.length` assigned, coordsys.py 1262-1269; `_getLength` of the zero vector divides by zero. -/
def setLength (r : RObj) (v : ℝ) : Except Err RObj :=
  let l := √(r.x ^ 2 + r.y ^ 2 + r.z ^ 2)
  if l = 0 then .error .zeroDivision
  else .ok { r with x := r.x * (v / l), y := r.y * (v / l), z := r.z * (v / l) }

/-- A spherical coordinate with an epoch and a distance: `_dpc`, a value and an error in parsecs (coordsys.py 1359-1370). -/
structure SObj where
  pos : LL
  epoch : Option Epoch
  dpc : Option (ℝ × ℝ)

/-- `_getDistanceau`, coordsys.py 1377-1386. -/
def distanceau (s : SObj) : Option (ℝ × ℝ) :=
  s.dpc.map fun d => (d.1 * (cmperpc * (1 / cmperau)), d.2 * (cmperpc * (1 / cmperau)))

/-- `_setDistanceau` with a number, coordsys.py 1387-1399. -/
def auToDpc (r : ℝ) : ℝ × ℝ := (r * (cmperau * (1 / cmperpc)), 0)

/-- The equatorial constructor called with keywords `epoch` and a distance (coordsys.py 1872-1892): the epoch goes through `float`. -/
def mkEq (long lat : ℝ) (epoch : Option Epoch) (dpc : Option (ℝ × ℝ)) : SObj :=
  ⟨LatLong.construct eqCls.longrange long lat, epoch.map fun e => .flt e.val, dpc⟩

/-- `_toICRS` and `_toGCRS`, coordsys.py 2023-2039, 2179-2196. A zero vector raises ZeroDivisionError. -/
def toSph (r : RObj) : Except Err SObj :=
  let l := √(r.x * r.x + r.y * r.y + r.z * r.z)
  if l = 0 then .error .zeroDivision
  else
    let dec := arcsin (r.z / l)
    let ra := atan2 r.y r.x
    .ok (mkEq ra dec r.epoch (match r.unit with
      | none => none
      | some .pc => some (l, 0)
      | some .au => some (auToDpc l)))

/-- Python 2's `tuple > int`: values of different types compare by type name, so every tuple is greater than every number. -/
def tupleGreater (_ : ℝ × ℝ) (_ : ℝ) : Bool := true

/-- `_fromICRS` and `_fromGCRS`, coordsys.py 2041-2058, 2198-2216: `distanceau>1000` compares a tuple with a number. -/
def toRect (s : SObj) : RObj :=
  let ra := s.pos.long.val
  let dec := s.pos.lat.val
  let ru : ℝ × Option Unit := match s.dpc with
    | none => (1, none)
    | some d => if tupleGreater (d.1 * (cmperpc * (1 / cmperau)), d.2 * (cmperpc * (1 / cmperau))) 1000 then (d.1, some .pc)
      else (d.1 * (cmperpc * (1 / cmperau)), some .au)
  ⟨ru.1 * cos ra * cos dec, ru.1 * sin ra * cos dec, ru.1 * sin dec, s.epoch, ru.2⟩

/-- `_toRectICRS` (GCRS to ICRS), coordsys.py 2219-2249; `earth` is `earth_pos_vel(epoch_to_jd(epoch),True)[0]` in AU. -/
def gcrsToIcrs (earth : ℝ → ℝ × ℝ × ℝ) (r : RObj) : Except Err RObj :=
  match r.epoch with
  | none => .error .value
  | some e =>
    match r.unit with
    | none => .ok ⟨r.x, r.y, r.z, some e, none⟩
    | some .au => .ok ⟨r.x - (earth e.val).1, r.y - (earth e.val).2.1, r.z - (earth e.val).2.2, some e, some .au⟩
    | some .pc => .ok ⟨r.x - (earth e.val).1 / auperpc, r.y - (earth e.val).2.1 / auperpc, r.z - (earth e.val).2.2 / auperpc, some e, some .pc⟩

/-- `_fromRectICRS` (ICRS to GCRS), coordsys.py 2251-2282. -/
def icrsToGcrs (earth : ℝ → ℝ × ℝ × ℝ) (r : RObj) : Except Err RObj :=
  match r.epoch with
  | none => .error .value
  | some e =>
    match r.unit with
    | none => .ok ⟨r.x, r.y, r.z, some e, none⟩
    | some .au => .ok ⟨r.x - (earth e.val).1, r.y - (earth e.val).2.1, r.z - (earth e.val).2.2, some e, some .au⟩
    | some .pc => .ok ⟨r.x - (earth e.val).1 / auperpc, r.y - (earth e.val).2.1 / auperpc, r.z - (earth e.val).2.2 / auperpc, some e, some .pc⟩

/-- `EquatorialCoordinatesBase.convert`, coordsys.py 1893-1899 after 1779-1785: the result takes the epoch, and the distance if there is
one, of the original. -/
def finish (s : SObj) (res : SObj) : SObj :=
  { res with epoch := s.epoch, dpc := match s.dpc with | none => res.dpc | some d => some d }

/-- GCRS to ICRS along GCRS, rectangular GCRS, rectangular ICRS, ICRS. -/
def sphGcrsToIcrs (earth : ℝ → ℝ × ℝ × ℝ) (s : SObj) : Except Err SObj := do
  let r ← gcrsToIcrs earth (toRect s)
  let t ← toSph r
  pure (finish s t)

/-- ICRS to GCRS along the same path backwards. -/
def sphIcrsToGcrs (earth : ℝ → ℝ × ℝ × ℝ) (s : SObj) : Except Err SObj := do
  let r ← icrsToGcrs earth (toRect s)
  let t ← toSph r
  pure (finish s t)

/-- `GCRSCoordinates.transformToEpoch`, coordsys.py 2074-2091: to ICRS, relabel (ICRS is inertial), and back. -/
def gcrsNewEpoch (earth : ℝ → ℝ × ℝ × ℝ) (s : SObj) (v : ℝ) : Except Err SObj := do
  let c1 ← sphGcrsToIcrs earth s
  let c2 ← sphIcrsToGcrs earth { c1 with epoch := some (.flt v) }
  pure ⟨c2.pos, some (.flt v), c2.dpc⟩

/-- Assigning `epoch` on a rectangular coordinate that has one: `EpochalCoordinates.transformToEpoch(newepoch)` lacks `self` in the GCRS
and ecliptic classes (coordsys.py 2145, 3191: TypeError); the ICRS class relabels (1989). -/
inductive RCls
  | icrs | gcrs | ecl
deriving DecidableEq

def setEpochR (c : RCls) (r : RObj) : Option ℝ → Except Err RObj
  | none => .ok { r with epoch := none }
  | some v =>
    match r.epoch with
    | none => .ok { r with epoch := some (.flt v) }
    | some _ => if c = .icrs then .ok { r with epoch := some (.flt v) } else .error .type

/-- `_toEcC` and `_toEcQ`, coordsys.py 3194-3214; the constructor stores the epoch as it is (3071-3076). -/
def eclToSph (r : RObj) : Except Err SObj :=
  let l := √(r.x * r.x + r.y * r.y + r.z * r.z)
  if l = 0 then .error .zeroDivision
  else .ok ⟨LatLong.construct eqCls.longrange (atan2 r.y r.x) (arcsin (r.z / l)), r.epoch, some (auToDpc l)⟩

/-- `_fromEcC` and `_fromEcQ`, coordsys.py 3216-3246. -/
def eclToRect (s : SObj) : RObj :=
  let l := s.pos.long.val
  let b := s.pos.lat.val
  let r := match distanceau s with
    | none => 1
    | some d => d.1
  ⟨r * cos l * cos b, r * sin l * cos b, r * sin b, s.epoch, some .au⟩

/-- `AngularSeparation.separation3d` without redshifts, coordsys.py 694-723. -/
def separation3d (sep d1 d2 : ℝ) : ℝ := √(d1 * d1 + d2 * d2 - 2 * d1 * d2 * cos sep)

/-- An ecliptic coordinate with its errors (radians). -/
structure EObj where
  lat : ℝ
  long : ℝ
  laterr : Option ℝ
  longerr : Option ℝ
  epoch : Option Epoch

/-- A given error that is not zero. -/
def nonzero (e : Option ℝ) : Prop := e ≠ none ∧ e ≠ some 0

open Classical in
/-- Assigning `epoch` on an ecliptic coordinate: `transformToEpoch` of the ecliptic classes, coordsys.py 3093-3103, 3146-3155, after
1145-1156.  `moved` is the position the conversion through the equatorial frame gives.  With a nonzero error that conversion raises
ValueError (the 3x3 matrix times the row vector of 1605-1606).  Otherwise latitude and longitude are overwritten first; then
`_laterr._decval` raises AttributeError without a latitude error; with one (zero) it is overwritten with the *latitude*; then the same for
the longitude error, and the epoch is stored. -/
def eclNewEpoch (moved : ℝ × ℝ → ℝ × ℝ) (o : EObj) (v : ℝ) : EObj × Except Err _root_.Unit :=
  match o.epoch with
  | none => ({ o with epoch := some (.flt v) }, .ok ())
  | some _ =>
    if nonzero o.laterr ∨ nonzero o.longerr then (o, .error .value)
    else
      let n := moved (o.lat, o.long)
      let o1 := { o with lat := n.1, long := n.2 }
      if o.laterr = none then (o1, .error .attribute)
      else
        let o2 := { o1 with laterr := some n.1 }
        if o.longerr = none then (o2, .error .attribute)
        else ({ o2 with longerr := o.longerr, epoch := some (.flt v) }, .ok ())

end

end Verif.RectFrames
