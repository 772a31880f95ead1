import Mathlib.Data.Real.Basic
import Mathlib.Data.Real.Sqrt
import Mathlib.Analysis.SpecialFunctions.Log.Basic
import Mathlib.Analysis.SpecialFunctions.Pow.Real
import Mathlib.Data.List.Infix
import Mathlib.Algebra.BigOperators.Group.List.Basic

/-!
# The x-axis of a spectrum: spacing, tests, resampling, alignment (astropysics/spec.py 569-634, 677-766, 1852-1907)

`Spectrum.getDx`, `getDlogx`, `isXMatched`, `isLinear`, `isLogarithmic`, `resample`, `linearize`, `logify` and the function
`align_spectra`.  Numbers are reals (doubles are idealised), spectra are one-dimensional.  Only the linear interpolation is
modelled.
-/

namespace Verif.SpecAxis

open Classical

/-- The exceptions of this module. -/
inductive Err
  | value | index
deriving DecidableEq

/-- `np.convolve(a, v, mode='valid')`: the shorter array slides over the longer one, whatever the order of the arguments; an
empty array raises ValueError. -/
noncomputable def convValid (a v : List ℝ) : Except Err (List ℝ) :=
  if a.isEmpty || v.isEmpty then .error .value
  else
    let p := if a.length < v.length then (v, a) else (a, v)
    .ok ((List.range (p.1.length - p.2.length + 1)).map fun k =>
      ((List.range p.2.length).map fun j => p.2.getD j 0 * p.1.getD (k + (p.2.length - 1) - j) 0).sum)

/-- `l.mean()`. -/
noncomputable def mean (l : List ℝ) : ℝ := l.sum / l.length

/-- `np.std(l)`. -/
noncomputable def std (l : List ℝ) : ℝ := Real.sqrt (mean (l.map fun d => (d - mean l) ^ 2))

/-- `getDx(mean=False)`, spec.py 569-579. -/
noncomputable def getDx (x : List ℝ) : Except Err (List ℝ) := convValid x [1, -1]

/-- `getDx()`. -/
noncomputable def getDxMean (x : List ℝ) : Except Err ℝ := (getDx x).map mean

/-- `getDlogx(mean=False)`, spec.py 581-593. -/
noncomputable def getDlogx (x : List ℝ) (logbase : ℝ) : Except Err (List ℝ) :=
  convValid (x.map fun t => Real.log t / Real.log logbase) [1, -1]

/-- `getDlogx()`. -/
noncomputable def getDlogxMean (x : List ℝ) (logbase : ℝ) : Except Err ℝ := (getDlogx x logbase).map mean

/-- `isLinear`, spec.py 612-617. -/
noncomputable def isLinear (x : List ℝ) (eps : ℝ) : Except Err Bool := (getDx x).map fun d => decide (std d < eps)

/-- `isLogarithmic`, spec.py 619-624. -/
noncomputable def isLogarithmic (x : List ℝ) (eps : ℝ) : Except Err Bool := (getDlogx x 10).map fun d => decide (std d < eps)

/-- `x - y` of one-dimensional arrays, with the broadcasting of arrays of one element; `none` is the ValueError. -/
noncomputable def bsub (x y : List ℝ) : Option (List ℝ) :=
  if x.length = y.length then some (List.zipWith (fun a b => a - b) x y)
  else if y.length = 1 then some (x.map fun a => a - y.getD 0 0)
  else if x.length = 1 then some (y.map fun b => x.getD 0 0 - b)
  else none

/-- `isXMatched`, spec.py 595-610: the standard deviation of the differences; the ValueError is turned into False, and so is
the nan an empty array gives. -/
noncomputable def isXMatched (x y : List ℝ) (tol : ℝ) : Bool :=
  match bsub x y with
  | some d => if d.isEmpty then false else decide (std d < tol)
  | none => false

/-- `np.interp(t, xs, fs)` for increasing `xs`: linear between the nodes, constant outside. -/
noncomputable def interp : List ℝ → List ℝ → ℝ → ℝ
  | x0 :: x1 :: xs, f0 :: f1 :: fs, t =>
    if t ≤ x0 then f0
    else if t < x1 then f0 + (f1 - f0) / (x1 - x0) * (t - x0)
    else interp (x1 :: xs) (f1 :: fs) t
  | _ :: _, f0 :: _, _ => f0
  | _, _, _ => 0

/-- The arrays of a spectrum, and whether its class is `Spectrum` itself. -/
structure Sp where
  x : List ℝ
  flux : List ℝ
  err : List ℝ
  plain : Bool

/-- `resample(newx, 'linear', replace)`, spec.py 677-732: the spectrum afterwards, and what is returned. -/
noncomputable def resample (s : Sp) (newx : List ℝ) (replace : Bool) : Sp × Except Err (List ℝ × List ℝ × List ℝ) :=
  if s.x.isEmpty then (s, .error .value)
  else
    let newflux := newx.map (interp s.x s.flux)
    let newerr := newx.map (interp s.x s.err)
    if replace then
      if newx.length ≠ s.x.length then (s, .error .value)
      else ({ s with x := newx, flux := newflux, err := newerr }, .ok (newx, newflux, newerr))
    else (s, .ok (newx, newflux, newerr))

/-- `np.min` of a nonempty list. -/
noncomputable def npMin (l : List ℝ) : ℝ := l.foldl min (l.headD 0)

/-- `np.max` of a nonempty list. -/
noncomputable def npMax (l : List ℝ) : ℝ := l.foldl max (l.headD 0)

/-- `np.linspace(l, u, n)`. -/
noncomputable def linspace (l u : ℝ) (n : Nat) : List ℝ := (List.range n).map fun k : Nat => l + (k : ℝ) * ((u - l) / ((n : ℝ) - 1))

/-- `np.logspace(a, b, n)`. -/
noncomputable def logspace (a b : ℝ) (n : Nat) : List ℝ := (linspace a b n).map fun t => (10 : ℝ) ^ t

/-- `np.log10`. -/
noncomputable def log10 (t : ℝ) : ℝ := Real.log t / Real.log 10

/-- `linearize`, spec.py 734-747 (`npix` is the number of pixels; `np.min` of an empty axis raises ValueError, and so does the
resampling). -/
noncomputable def linearize (s : Sp) (lower upper : Option ℝ) (replace : Bool) : Sp × Except Err (List ℝ × List ℝ × List ℝ) :=
  let l := lower.getD (npMin s.x)
  let u := upper.getD (npMax s.x)
  resample s (linspace l u s.x.length) replace

/-- `logify`, spec.py 749-763. -/
noncomputable def logify (s : Sp) (lower upper : Option ℝ) (replace : Bool) : Sp × Except Err (List ℝ × List ℝ × List ℝ) :=
  let l := lower.getD (npMin s.x)
  let u := upper.getD (npMax s.x)
  resample s (logspace (log10 l) (log10 u) s.x.length) replace

/-- `[f(s) for s in specs]`, where the first exception ends the loop. -/
def collect {α β : Type} (f : α → Except Err β) : List α → Except Err (List β)
  | [] => .ok []
  | a :: l => match f a with
    | .error e => .error e
    | .ok b => match collect f l with
      | .error e => .error e
      | .ok bs => .ok (b :: bs)

/-- `'sub' in ressample` for strings. -/
def contains (sub s : List Char) : Bool := decide (sub <:+: s)

/-- The last loop of `align_spectra`, spec.py 1902-1903: the spectra are changed one after the other, and an exception leaves
the rest as they were. -/
noncomputable def resampleAll (x : List ℝ) : List Sp → List Sp × Option Err
  | [] => ([], none)
  | s :: l =>
    let r := resample s x true
    match r.2 with
    | .error e => (r.1 :: l, some e)
    | .ok _ =>
      let t := resampleAll x l
      (r.1 :: t.1, t.2)

/-- The index of the template, spec.py 1886-1897: `np.where(reses == max(reses))[0][0]`, in both branches of the `if`. -/
noncomputable def templateIndex (mode : List Char) (specs : List Sp) : Except Err Nat :=
  let reses := if contains "log".toList mode then collect (fun s : Sp => getDlogxMean s.x 10) specs
    else collect (fun s : Sp => getDxMean s.x) specs
  match reses with
  | .error e => .error e
  | .ok [] => .error .value
  | .ok rs => .ok (if contains "super".toList mode then rs.findIdx (fun r => decide (r = npMax rs))
      else rs.findIdx (fun r => decide (r = npMax rs)))

/-- `align_spectra(specs, mode, 'linear', copy)`, spec.py 1852-1905: the spectra passed in afterwards, and what is returned.
The spectra are distinct objects.  (`mins` and `maxs` are computed and never used.) -/
noncomputable def alignSpectra (specs : List Sp) (mode : List Char) (copy : Bool) : List Sp × Except Err (List Sp) :=
  if specs.any (fun s => !s.plain) then (specs, .error .value)
  else if !(contains "super".toList mode) && !(contains "sub".toList mode) then (specs, .error .value)
  else match templateIndex mode specs with
    | .error e => (specs, .error e)
    | .ok i =>
      let x := ((specs[i]?).map Sp.x).getD []
      let r := resampleAll x specs
      match r.2 with
      | some e => (if copy then specs else r.1, .error e)
      | none => (if copy then specs else r.1, .ok r.1)

end Verif.SpecAxis
