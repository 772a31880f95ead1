import Mathlib.Analysis.SpecialFunctions.Pow.Real
import Mathlib.Tactic.Linarith
import Mathlib.Tactic.Ring

/-!
# CCD images (astropysics/ccd.py 195-530, 745-810, 964-1190, 1193-1284) (C104)

`ArrayImage` and `FitsImage` (one HDU) with their ranges, scalings, statistics cache, in-place operations and write-back.  Not modelled: masks (the
action 'mask'), `applyChangesOnActivate` (False), several HDUs, plotting, broadcasting of shapes other than scalars.
-/

namespace Verif.Ccd

/-- A two-dimensional array: its shape and its pixels (those outside the shape are meaningless). -/
structure Arr where
  nx : ℕ
  ny : ℕ
  px : ℕ → ℕ → ℝ

/-- A pixel of the array. -/
def Arr.has (a : Arr) (i j : ℕ) : Prop := i < a.nx ∧ j < a.ny

/-- The same array: same shape and pixels. -/
def Arr.same (a b : Arr) : Prop := a.nx = b.nx ∧ a.ny = b.ny ∧ ∀ i j, a.has i j → a.px i j = b.px i j

/-- The pixels in order (`ravel`). -/
noncomputable def Arr.pixels (a : Arr) : List ℝ := (List.range a.nx).flatMap fun i => (List.range a.ny).map fun j => a.px i j

def Arr.map (f : ℝ → ℝ) (a : Arr) : Arr := ⟨a.nx, a.ny, fun i j => f (a.px i j)⟩

/-- A range (xl,xu,yl,yu). -/
structure Rng where
  xl : ℤ
  xu : ℤ
  yl : ℤ
  yu : ℤ
deriving DecidableEq, Repr

/-- Python's treatment of a slice bound on an axis of length n. -/
def bound (n : ℕ) (i : ℤ) : ℕ := if i < 0 then (i + n).toNat else min i.toNat n

/-- First pixel and one past the last pixel of a range on an axis. -/
def Rng.x0 (r : Rng) (nx : ℕ) : ℕ := bound nx r.xl
def Rng.x1 (r : Rng) (nx : ℕ) : ℕ := bound nx r.xu
def Rng.y0 (r : Rng) (ny : ℕ) : ℕ := bound ny r.yl
def Rng.y1 (r : Rng) (ny : ℕ) : ℕ := bound ny r.yu

/-- `a[xl:xu,yl:yu]`. -/
def Arr.slice (a : Arr) (r : Rng) : Arr :=
  ⟨r.x1 a.nx - r.x0 a.nx, r.y1 a.ny - r.y0 a.ny, fun i j => a.px (r.x0 a.nx + i) (r.y0 a.ny + j)⟩

/-- Is the pixel inside the range? -/
def Rng.inside (r : Rng) (a : Arr) (i j : ℕ) : Bool :=
  decide (r.x0 a.nx ≤ i ∧ i < r.x1 a.nx ∧ r.y0 a.ny ≤ j ∧ j < r.y1 a.ny)

/-- `a[xl:xu,yl:yu] = d` with d indexed from the corner of the range. -/
def Arr.setSlice (a : Arr) (r : Rng) (d : ℕ → ℕ → ℝ) : Arr :=
  ⟨a.nx, a.ny, fun i j => if r.inside a i j then d (i - r.x0 a.nx) (j - r.y0 a.ny) else a.px i j⟩

inductive Err where
  | index | value | type | attribute | key | noInverse
deriving DecidableEq, Repr

/-- A scaling, ccd.py 810-962: `same` says that `transform` hands back the array it was given. -/
structure Scaling where
  name : String
  tr : ℝ → ℝ
  inv : Option (ℝ → ℝ)
  same : Bool

/-- `LinearScaling`, ccd.py 849-856. -/
def linear : Scaling := ⟨"linear", fun x => x, some fun x => x, true⟩

inductive Kind where
  | array | fits
deriving DecidableEq, Repr

/-- `_active`: a view of the region of the base array or an array of its own. -/
inductive Active where
  | view
  | own (d : Arr)

/-- Statistics of an image. -/
structure Stats where
  mean : ℝ
  median : ℝ
  std : ℝ
  min : ℝ
  max : ℝ

/-- `_fstatd`: None, an empty dictionary or a filled one. -/
inductive Cache where
  | none
  | empty
  | full (s : Stats)

structure Img where
  kind : Kind
  base : Arr
  rng : Option Rng
  scaling : Scaling
  active : Active
  fstat : Cache

/-- numpy's reductions. -/
structure Np where
  mean : List ℝ → ℝ
  median : List ℝ → ℝ
  std : List ℝ → ℝ
  min : List ℝ → ℝ
  max : List ℝ → ℝ

/-- `_extractArray(range)`: ArrayImage ccd.py 1221-1226, FitsImage 1110-1121 (with range check). -/
def extract (k : Kind) (base : Arr) : Option Rng → Except Err Arr
  | none => .ok base
  | some r =>
    match k with
    | .array => .ok (base.slice r)
    | .fits =>
      if r.xl < 0 ∨ r.xu > base.nx ∨ r.yl < 0 ∨ r.yu > base.ny then .error .index else .ok (base.slice r)

/-- `_applyArray(range,data)`: ArrayImage ccd.py 1228-1233; FitsImage 1124-1134, which assigns to the transposed stored array without transposing
the data of a range.  Arrays of another shape are rejected. -/
def apply (k : Kind) (base : Arr) (rng : Option Rng) (d : Arr) : Except Err Arr :=
  match k, rng with
  | .array, none => if d.nx = base.nx ∧ d.ny = base.ny then .ok d else .error .value
  | .fits, none => .ok d
  | .array, some r =>
    if d.nx = (base.slice r).nx ∧ d.ny = (base.slice r).ny then .ok (base.setSlice r d.px) else .error .value
  | .fits, some r =>
    if r.xl < 0 ∨ r.xu > base.nx ∨ r.yl < 0 ∨ r.yu > base.ny then .error .index
    else if d.nx = (base.slice r).ny ∧ d.ny = (base.slice r).nx then .ok (base.setSlice r (fun i j => d.px j i)) else .error .value

/-- The `data` property, ccd.py 794-800. -/
def Img.data (m : Img) : Arr :=
  match m.active with
  | .own d => d
  | .view => match m.rng with
    | none => m.base
    | some r => m.base.slice r

/-- The argument of `activateRange`. -/
inductive RangeArg where
  | all
  | box (r : Rng)
  | centre (x y rad : ℤ)
  | other

/-- ccd.py 281-303: the range that is meant. -/
def Img.resolve (m : Img) : RangeArg → Except Err (Option Rng)
  | .all => .ok none
  | .box r => .ok (some r)
  | .centre x y rad =>
    if x < 0 ∨ x ≥ m.base.nx ∨ y < 0 ∨ y ≥ m.base.ny then .error .index
    else .ok (some ⟨if x - rad > 0 then x - rad else 0, if x + rad ≤ m.base.nx then x + rad else m.base.nx,
      if y - rad > 0 then y - rad else 0, if y + rad ≤ m.base.ny then y + rad else m.base.ny⟩)
  | .other => .error .value

/-- The array `_scalefunc(im)` for the region: the same array or a new one. -/
def newActive (sc : Scaling) (im : Arr) : Active := if sc.same then .view else .own (im.map sc.tr)

/-- `activateRange(range)`, ccd.py 263-305. -/
def Img.activateRange (m : Img) (a : RangeArg) : Except Err Img :=
  match m.resolve a with
  | .error e => .error e
  | .ok r =>
    match extract m.kind m.base r with
    | .error e => .error e
    | .ok im => .ok { m with rng := r, active := newActive m.scaling im }

/-- Back from a stored range to an argument. -/
def toArg : Option Rng → RangeArg
  | none => .all
  | some r => .box r

/-- `setScaling(obj)` for a scaling object, ccd.py 340-350: `_fstatd` becomes None. -/
def Img.setScaling (m : Img) (sc : Scaling) : Except Err Img :=
  ({ m with scaling := sc, fstat := .none } : Img).activateRange (toArg m.rng)

/-- `setScaling(None)`, ccd.py 335-340: nothing if the scaling is linear already. -/
def Img.setScalingNone (m : Img) : Except Err Img := if m.scaling.name = "linear" then .ok m else m.setScaling linear

/-- The constructors, ccd.py 227-248, 1193-1219, 1046-1052: without a scaling the whole image is activated, whatever range was given; with one, reading
the first HDU of a FITS image clears `_fstatd`, which is None by then. -/
def create (k : Kind) (base : Arr) (r : Option Rng) (sc : Option Scaling) : Except Err Img :=
  let m : Img := ⟨k, base, r, linear, .view, .empty⟩
  match sc with
  | none => m.activateRange .all
  | some s => if k = .fits then .error .attribute else m.setScaling s

/-- Changing pixels of `data` in place (also `img.data[...] = ...` by the user): f gets the pixel's position in `data` and its value. -/
def Img.edit (m : Img) (f : ℕ → ℕ → ℝ → ℝ) : Img :=
  match m.active with
  | .own d => { m with active := .own ⟨d.nx, d.ny, fun i j => f i j (d.px i j)⟩ }
  | .view => match m.rng with
    | none => { m with base := ⟨m.base.nx, m.base.ny, fun i j => f i j (m.base.px i j)⟩ }
    | some r => { m with base := m.base.setSlice r (fun i j => f i j ((m.base.slice r).px i j)) }

/-- What `applyChanges` does to the stored image, ccd.py 307-313. -/
def Img.applied (m : Img) : Except Err Arr :=
  match m.scaling.inv with
  | none => .error .noInverse
  | some g =>
    if m.scaling.name = "linear" ∧ m.kind = .array then .ok m.base
    else apply m.kind m.base m.rng (m.data.map g)

/-- After a write-back.  A FITS image written as a whole takes over the array it is given (`data = imdata.T`), so that for scalings that hand the
array through, `_active` is a view of the stored array again. -/
def afterApply (m : Img) (b : Arr) : Img :=
  if m.kind = .fits ∧ m.rng = none ∧ m.scaling.same then { m with base := b, active := .view } else { m with base := b }

/-- `applyChanges()`, ccd.py 307-318: the state afterwards and the error raised, if any: clearing `_fstatd` fails when it is None. -/
def Img.applyChanges (m : Img) : Img × Option Err :=
  match m.applied with
  | .error e => (m, some e)
  | .ok b =>
    match m.fstat with
    | .none => (afterApply m b, some .attribute)
    | _ => ({ (afterApply m b) with fstat := .empty }, none)

/-- `_fullStats`, ccd.py 498-512 (the region read is the whole image). -/
noncomputable def Img.fullStats (np : Np) (m : Img) : Except Err (Stats × Img) :=
  match m.fstat with
  | .full s => .ok (s, m)
  | .none => .error .type
  | .empty =>
    let v := (m.base.map m.scaling.tr).pixels
    let s : Stats := ⟨np.mean v, np.median v, np.std v, np.min v, np.max v⟩
    .ok (s, { m with fstat := .full s })

/-- A replacement action, ccd.py 473-494 (without 'mask'). -/
inductive Action where
  | number (v : ℝ)
  | mean | median | noclipmean | noclipmedian | fullmean | fullmedian
  | other

/-- The pixels of an array that are not clipped. -/
noncomputable def unclipped (a : Arr) (c : ℕ → ℕ → Bool) : List ℝ :=
  (List.range a.nx).flatMap fun i => ((List.range a.ny).filter fun j => !c i j).map fun j => a.px i j

/-- `_repl_inds(action,cliparr)`, ccd.py 473-496: the new image and the value of `sum(cliparr)`: the number of clipped pixels in each column. -/
noncomputable def Img.replace (np : Np) (m : Img) (a : Action) (c : ℕ → ℕ → Bool) : Except Err (Img × List ℕ) :=
  let put (m : Img) (v : ℝ) : Img × List ℕ :=
    (m.edit fun i j x => if c i j then v else x,
     (List.range m.data.ny).map fun j => ((List.range m.data.nx).filter fun i => c i j).length)
  match a with
  | .number v => .ok (put m v)
  | .mean => .ok (put m (np.mean m.data.pixels))
  | .median => .ok (put m (np.median m.data.pixels))
  | .noclipmean => .ok (put m (np.mean (unclipped m.data c)))
  | .noclipmedian => .ok (put m (np.median (unclipped m.data c)))
  | .fullmean => match m.fullStats np with
    | .error e => .error e
    | .ok (s, m') => .ok (put m' s.mean)
  | .fullmedian => match m.fullStats np with
    | .error e => .error e
    | .ok (s, m') => .ok (put m' s.median)
  | .other => .error .value

inductive Comp where
  | lt | gt | ge | le | other

/-- `clipThreshold(thresh,action,comp)`, ccd.py 424-450. -/
noncomputable def Img.clipThreshold (np : Np) (m : Img) (t : ℝ) (a : Action) : Comp → Except Err (Img × List ℕ)
  | .lt => m.replace np a fun i j => decide (m.data.px i j < t)
  | .gt => m.replace np a fun i j => decide (m.data.px i j > t)
  | .ge => m.replace np a fun i j => decide (m.data.px i j ≥ t)
  | .le => m.replace np a fun i j => decide (m.data.px i j ≤ t)
  | .other => .error .value

/-- `clipOutliers((lo,hi),percentage,action)`, ccd.py 357-384. -/
noncomputable def Img.clipOutliers (np : Np) (m : Img) (lo hi : ℝ) (percentage : Bool) (a : Action) : Except Err (Img × List ℕ) :=
  let mi := np.min m.data.pixels
  let ma := np.max m.data.pixels
  let l := if percentage then mi + lo * (ma - mi) / 100 else lo
  let h := if percentage then mi + hi * (ma - mi) / 100 else hi
  m.replace np a fun i j => decide (m.data.px i j > h) || decide (m.data.px i j < l)

/-- `clipSigma(sigma,fullsig,action)`, ccd.py 386-410: `fullsig` has no effect, the statistics of the whole image are used. -/
noncomputable def Img.clipSigma (np : Np) (m : Img) (sigma : ℝ) (_fullsig : Bool) (a : Action) : Except Err (Img × List ℕ) :=
  match m.fullStats np with
  | .error e => .error e
  | .ok (s, m') =>
    m'.replace np a fun i j => decide (m.data.px i j > s.mean + sigma * s.std) || decide (m.data.px i j < s.mean - sigma * s.std)

inductive Offset where
  | value (v : ℝ) | gmin | gminp1 | min | minp1

/-- `offsetData(offset)`, ccd.py 452-471. -/
noncomputable def Img.offsetData (np : Np) (m : Img) : Offset → Except Err Img
  | .value v => .ok (m.edit fun _ _ x => x - v)
  | .gmin => match m.fullStats np with
    | .error e => .error e
    | .ok (s, m') => .ok (m'.edit fun _ _ x => x - s.min)
  | .gminp1 => match m.fullStats np with
    | .error e => .error e
    | .ok (s, m') => .ok (m'.edit fun _ _ x => x - (s.min + 1))
  | .min => .ok (m.edit fun _ _ x => x - np.min m.data.pixels)
  | .minp1 => .ok (m.edit fun _ _ x => x - (np.min m.data.pixels + 1))

/-- `ArrayImage.load` of a saved `ArrayImage`, ccd.py 1235-1283: the stored array and `_active` are written and read separately. -/
def Img.saveLoad (m : Img) : Img := { m with active := .own m.data }

/-- What `ImageBiasSubtractor.plProcess` and `ImageFlattener.plProcess` do with the new data of a CCDImage, ccd.py 1468-1472, 1665-1670. -/
def Img.replaceData (m : Img) (d : Arr) : Img × Option Err := ({ m with active := .own d } : Img).applyChanges

end Verif.Ccd
