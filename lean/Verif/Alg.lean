import Mathlib.Algebra.Order.Field.Basic
import Mathlib.Algebra.BigOperators.Group.List.Basic
import Mathlib.Data.List.Sort
import Mathlib.Data.Rat.Defs
import Mathlib.Algebra.Order.Ring.Rat

/-!
# Array helpers (astropysics/utils/alg.py 52-350)

Arrays are lists (flattened, as the functions do themselves); numbers are the elements of a linearly ordered field.
-/

namespace Verif.Alg

variable {α : Type} [Field α] [LinearOrder α]

/-- `np.searchsorted(a, val)` on a sorted array: the first index whose element is not smaller than `val`. -/
def searchsorted (a : List α) (val : α) : Nat := a.findIdx (fun x => decide (val ≤ x))

/-- `nearestsorted` for one value, alg.py 52-86.  `none` is the IndexError of an empty array.  `a[i-1]` with `i = 0` is the last element. -/
def nearestsorted (a : List α) (val : α) : Option (α × Nat) :=
  let i := searchsorted a val
  let i := if i ≥ a.length then i - 1 else i
  match a[i]?, (if i = 0 then a[a.length - 1]? else a[i - 1]?) with
  | some ai, some am =>
    if |am - val| < |ai - val| then
      -- i = 0 would become the index -1, i.e. the last element
      let j := if i = 0 then a.length - 1 else i - 1
      a[j]?.map (·, j)
    else some (ai, i)
  | _, _ => none

/-- `np.roll(a, 1)`: the last element moves to the front. -/
def roll1 (l : List Bool) : List Bool :=
  match l.getLast? with
  | none => []
  | some b => b :: l.dropLast

/-- `crossmask`, alg.py 125-188.  `none` is the IndexError `mask[0]` raises for an empty array. -/
def crossmask (x : List α) (threshold : α) (belowtoabove : Bool) : Option (List Bool) :=
  let a := x.map (fun v => if belowtoabove then decide (v < threshold) else decide (v > threshold))
  let b := x.map (fun v => if belowtoabove then decide (v ≥ threshold) else decide (v ≤ threshold))
  let mask := List.zipWith (· && ·) (roll1 a) b
  match mask with
  | [] => none
  | _ :: rest => some (false :: rest)

/-! ## sigma clipping -/

/-- `data[mask]`. -/
def select (data : List α) (mask : List Bool) : List α := (data.zip mask).filterMap (fun p => if p.2 then some p.1 else none)

/-- One pass of the loop body, alg.py 296-297 and 300-301: `do*do <= varfunc(data[mask])*sig**2`, evaluated for all data, also those
rejected before.  `none` from `cen` or `var` is NaN (statistics of an empty selection), for which every comparison is False. -/
def pass (cen var : List α → Option α) (sig : α) (data : List α) (mask : List Bool) : List Bool :=
  match cen (select data mask), var (select data mask) with
  | some c, some v => data.map (fun x => decide ((x - c) * (x - c) ≤ v * sig ^ 2))
  | _, _ => data.map (fun _ => false)

def count (mask : List Bool) : Nat := mask.countP id

/-- The branch with a number of iterations, alg.py 299-301. -/
def clipIters (cen var : List α → Option α) (sig : α) (data : List α) : Nat → List Bool
  | 0 => data.map (fun _ => true)
  | n + 1 => pass cen var sig data (clipIters cen var sig data n)

/-- The `while` loop of `iters=None`, alg.py 293-297, run for at most `fuel` passes; `none` if it has not ended by then. -/
def clipLoop (cen var : List α → Option α) (sig : α) (data : List α) : Nat → Nat → List Bool → Option (List Bool)
  | 0, lastrej, mask => if count mask ≠ lastrej then none else some mask
  | fuel + 1, lastrej, mask =>
    if count mask ≠ lastrej then clipLoop cen var sig data fuel (count mask) (pass cen var sig data mask) else some mask

/-- `sigma_clip(data, sig, iters)` with `maout=False`, alg.py 255-307: kept data and mask; `none` if it needs more than `fuel` passes. -/
def sigmaClip (cen var : List α → Option α) (sig : α) (iters : Option Nat) (fuel : Nat) (data : List α) : Option (List α × List Bool) :=
  let mask0 := data.map (fun _ => true)
  match iters with
  | some n => let m := clipIters cen var sig data n; some (select data m, m)
  | none => (clipLoop cen var sig data fuel (count mask0 + 1) mask0).map (fun m => (select data m, m))

/-- `np.median`. -/
def median (l : List α) : Option α :=
  let s := l.insertionSort (· ≤ ·)
  let n := s.length
  if n % 2 = 1 then s[n / 2]? else
    match s[n / 2 - 1]?, s[n / 2]? with
    | some a, some b => some ((a + b) / 2)
    | _, _ => none

/-- `np.mean`. -/
def mean (l : List α) : Option α := if l = [] then none else some (l.sum / l.length)

/-- `np.var`. -/
def variance (l : List α) : Option α :=
  match mean l with
  | none => none
  | some m => mean (l.map (fun x => (x - m) * (x - m)))

/-- The methods of `estimate_background`, alg.py 310-350. -/
inductive Method (α : Type)
  | none
  | median
  | mean
  | m32
  | m2515
  | m21
  | scalar (c : α)
  | callable (f : List α → Option α)

/-- `estimate_background`, alg.py 310-350. -/
def estimateBackground (m : Method α) (l : List α) : Option α :=
  match m with
  | .none => some 0
  | .median => median l
  | .mean => mean l
  | .m32 => do let a ← median l; let b ← mean l; some (3 * a - 2 * b)
  | .m2515 => do let a ← median l; let b ← mean l; some (5 / 2 * a - 3 / 2 * b)
  | .m21 => do let a ← median l; let b ← mean l; some (2 * a - b)
  | .scalar c => some c
  | .callable f => f l

/-! ## nd_grid -/

/-- `np.repeat(v, k)` for a scalar count. -/
def repeatEach {β : Type} (v : List β) (k : Nat) : List β := v.flatMap (fun x => List.replicate k x)

/-- Position of a multi-index in the flat (C-order) array of the given shape. -/
def flatIndex : List Nat → List Nat → Nat
  | _ :: shape, i :: idx => i * shape.prod + flatIndex shape idx
  | _, _ => 0

/-- Entry `idx` of the `i`-th array made by `nd_grid`, alg.py 190-224: the vector repeated `sz/n` times is reshaped to
`[n_i] ++ other sizes` and its first axis is moved to position `i`; so entry `idx` of the result is entry
`idx[i] :: (idx without position i)` of the reshaped array.  `none` is an index out of bounds. -/
def ndGrid {β : Type} (vecs : List (List β)) (i : Nat) (idx : List Nat) : Option β :=
  let shape := vecs.map List.length
  match vecs[i]?, idx[i]? with
  | some v, some k =>
    let newshape := v.length :: shape.eraseIdx i
    (repeatEach v (shape.prod / v.length))[flatIndex newshape (k :: idx.eraseIdx i)]?
  | _, _ => none

end Verif.Alg
