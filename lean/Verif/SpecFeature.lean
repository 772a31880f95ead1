import Verif.SpecAxisProps

/-!
# Spectral features (astropysics/spec.py 501-510, 996-1020, 1088-1111, 1494-1690)

`SpectralFeature.computeFeatureData` without a fit, its `center` and unit conversion, `identify`, and the feature list of a
spectrum: `addFeatureRange`, `removeFeatureLocation`, `removeSpectralFeature`, assignment to `features`.
Numbers are reals; inf and nan are one value, `bad`.  Not modelled: fits of a model to the feature, the errors (the code
sets them to 0 or None), the search for the edges in `addFeatureLocation`.
-/

namespace Verif.SpecFeature

open Classical
open Verif.SpecAxis (convValid)

/-- The exceptions of this module. -/
inductive Err
  | value | index | type | attribute | notImplemented
deriving DecidableEq

/-- A float that may be nan or infinite. -/
inductive Num
  | val (r : ℝ)
  | bad

/-- Division of floats. -/
noncomputable def fdiv (a b : ℝ) : Num := if b = 0 then .bad else .val (a / b)

/-- The continuum of a spectrum or of a feature, once known: an array over all pixels, or a model. -/
inductive Cont
  | none
  | arr (v : List ℝ)
  | model (f : ℝ → ℝ)

/-- The `continuum` argument of a feature: that of the spectrum, the two values at the ends, or one of its own. -/
inductive FCont
  | fromspec
  | pair (a b : ℝ)
  | own (c : Cont)

/-- The part of a spectrum that is read. -/
structure Sp where
  x : List ℝ
  flux : List ℝ
  cont : Cont

/-- A spectral feature, spec.py 1503-1517: `center` is `_center`. -/
structure Feature where
  extent : Option (ℝ × ℝ)
  cont : FCont
  center : Option Num
  flux : ℝ
  ew : Option Num
  known : Option String

/-- The `edges` argument. -/
inductive Edges
  | interp | tweak | off | other
deriving DecidableEq

/-- A new feature, spec.py 1503-1517. -/
def newFeature (lower upper : ℝ) (c : FCont) : Feature := ⟨some (lower, upper), c, none, 0, none, none⟩

/-- `x.searchsorted(v)` of an increasing array: how many elements are smaller. -/
noncomputable def searchSorted (x : List ℝ) (v : ℝ) : Nat := x.countP (fun t => decide (t < v))

/-- `l[a:b]` for indices that are not negative. -/
def slice (l : List ℝ) (a b : Nat) : List ℝ := (l.drop a).take (b - a)

/-- An element-wise operation of one-dimensional arrays, with the broadcasting of arrays of one element. -/
noncomputable def bop (f : ℝ → ℝ → ℝ) (a b : List ℝ) : Except Err (List ℝ) :=
  if a.length = b.length then .ok (List.zipWith f a b)
  else if b.length = 1 then .ok (a.map fun t => f t (b.getD 0 0))
  else if a.length = 1 then .ok (b.map fun t => f (a.getD 0 0) t)
  else .error .value

/-- The continuum that applies, spec.py 1576-1581. -/
def chooseCont (s : Sp) (c : FCont) : FCont :=
  match c with
  | .fromspec => .own s.cont
  | c => c

/-- The continuum over the pixels of the feature, spec.py 1597-1607: `(x1, x2)` are the ends in increasing order, the two
values of a pair are taken in the order in which they were given. -/
noncomputable def contValues (c : FCont) (x1 x2 : ℝ) (x : List ℝ) (xi1 xi2 : Nat) : List ℝ :=
  match c with
  | .pair a b => x.map fun t => a + (b - a) / (x2 - x1) * (t - x1)
  | .own .none => x.map fun _ => 0
  | .own (.model f) => x.map f
  | .own (.arr v) => slice v xi1 xi2
  | .fromspec => x.map fun _ => 0

/-- The direct computation, spec.py 1632-1645: the pixel widths and the sum.  The interpolation at the edges is switched off
in the code. -/
noncomputable def lineFlux (s : Sp) (xi1 xi2 : Nat) (y cont : List ℝ) : Except Err ℝ :=
  let dxi1 := if xi1 = 0 then 0 else xi1 - 1
  let dxi2 := if xi2 = 0 then 0 else xi2 + 1
  match bop (fun p q => p - q) y cont with
  | .error e => .error e
  | .ok d => match convValid (slice s.x dxi1 dxi2) [0.5, 0, -0.5] with
    | .error _ => .error .value
    | .ok dx => match bop (fun p q => p * q) d dx with
      | .error e => .error e
      | .ok t => .ok t.sum

/-- `computeFeatureData(spec, False, False, edges)` for `edges` other than 'tweak', spec.py 1568-1669: the feature afterwards and the
exception, if any. -/
noncomputable def computeDirect (s : Sp) (f : Feature) : Feature × Option Err :=
  match f.extent with
  | none => (f, some .value)
  | some (a, b) =>
    let x1 := if a > b then b else a
    let x2 := if a > b then a else b
    let xi1 := searchSorted s.x x1
    let xi2 := searchSorted s.x x2
    let x := slice s.x xi1 xi2
    let y := slice s.flux xi1 xi2
    if x.isEmpty then (f, some .index)
    else
      let f1 := { f with center := some (fdiv (List.zipWith (fun p q => p * q) y x).sum y.sum) }
      let cont := contValues (chooseCont s f.cont) x1 x2 x xi1 xi2
      match lineFlux s xi1 xi2 y cont with
      | .error e => (f1, some e)
      | .ok lf => ({ f1 with flux := lf, ew := some (fdiv lf (SpecAxis.mean cont)) }, none)

/-- `computeFeatureData(spec, edges=edges)`, spec.py 1546-1669. -/
noncomputable def compute (s : Sp) (f : Feature) (edges : Edges) : Feature × Option Err :=
  match edges with
  | .other => (f, some .value)
  | .tweak => match f.extent with
    | none => (f, some .value)
    | some (a, b) =>
      let x1 := if a > b then b else a
      let x2 := if a > b then a else b
      match s.x[searchSorted s.x x1]?, s.x[searchSorted s.x x2]? with
      | some p, some q => computeDirect s { f with extent := some (p, q) }
      | _, _ => (f, some .index)
  | _ => computeDirect s f

/-- `center`, spec.py 1534-1543. -/
noncomputable def getCenter (f : Feature) : Option Num :=
  match f.center with
  | some c => some c
  | none => f.extent.map fun e => .val ((e.1 + e.2) / 2)

/-- What can be passed to `identify`, spec.py 1671-1679. -/
inductive Ident
  | known (name : String)
  | str
  | other

/-- `identify`. -/
def identify (f : Feature) : Ident → Feature × Option Err
  | .known n => ({ f with known := some n }, none)
  | .str => (f, some .notImplemented)
  | .other => (f, some .value)

/-- `addFeatureRange`, spec.py 996-1020: the feature list afterwards and the result. -/
noncomputable def addFeatureRange (s : Sp) (fs : List Feature) (lower upper : ℝ) (c : FCont) (id : Option Ident) :
    List Feature × Except Err Feature :=
  let r := compute s (newFeature lower upper c) .interp
  match r.2 with
  | some e => (fs, .error e)
  | none => match id with
    | none => (fs ++ [r.1], .ok r.1)
    | some i =>
      let q := identify r.1 i
      match q.2 with
      | some e => (fs, .error e)
      | none => (fs ++ [q.1], .ok q.1)

/-- What can be passed to `removeSpectralFeature`. -/
inductive Key
  | int (i : Int)
  | str
  | other

/-- `removeSpectralFeature`, spec.py 1099-1110.  A string is searched for the list of the `name` attributes, which features do
not have. -/
def removeFeature (fs : List Feature) : Key → List Feature × Option Err
  | .int i =>
    let j := if i < 0 then i + fs.length else i
    if 0 ≤ j ∧ j < fs.length then (fs.eraseIdx j.toNat, none) else (fs, some .index)
  | .str => if fs.isEmpty then (fs, some .type) else (fs, some .attribute)
  | .other => (fs, some .type)

/-- The distance of a feature from a location; nan for a feature without a finite centre. -/
noncomputable def distance (loc : ℝ) (f : Feature) : Num :=
  match getCenter f with
  | some (.val c) => .val |c - loc|
  | _ => .bad

/-- The order in which `np.argsort` puts floats: nan comes last. -/
def before : Num → Num → Prop
  | .val a, .val b => a < b
  | .val _, .bad => True
  | .bad, _ => False

/-- `np.argsort(seps)[0]`: the first of the smallest (the order of equal values is that of an insertion sort). -/
noncomputable def argmin : List Num → Nat → Num → Nat → Nat
  | [], _, _, best => best
  | d :: ds, i, m, best => if before d m then argmin ds (i + 1) d i else argmin ds (i + 1) m best

/-- `removeFeatureLocation`, spec.py 1088-1097. -/
noncomputable def removeLocation (fs : List Feature) (loc : ℝ) : List Feature × Option Err :=
  match fs.map (distance loc) with
  | [] => (fs, some .index)
  | d :: ds => removeFeature fs (.int (argmin ds 1 d 0))

/-- Assignment to `features`, spec.py 503-509; `none` stands for something that is not a feature.  The old features are to be
deleted from a tuple. -/
def setFeatures (fs : List Feature) (v : List (Option Feature)) : List Feature × Option Err :=
  if v.any Option.isNone then (fs, some .type)
  else if fs.isEmpty then (v.filterMap id, none)
  else (fs, some .type)

/-- The centre and its error under a change of units, spec.py 1519-1530. -/
noncomputable def convertCenter (xtrans : ℝ → ℝ) (center err : ℝ) : ℝ × ℝ :=
  (xtrans center, (xtrans (center + err) + xtrans (center - err)) / 2)

end Verif.SpecFeature
