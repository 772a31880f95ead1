import Mathlib.Data.Real.Basic
import Mathlib.Analysis.SpecialFunctions.Log.Basic
import Mathlib.Data.List.Sort

/-!
# Action nodes (astropysics/objcat.py 425-497, 3482-3750, 4127-4170)

`MatplotAction.__init__` and `_doAction`, pickling of action nodes, `PlottingAction2D._doAction` after the extraction of the two fields (`FieldExtract`) up to
the call of matplotlib, and `GraphAction._doAction`.  Drawing is not modelled.
-/

namespace Verif.PlotAction

/-- The exceptions: AttributeError, TypeError, NameError, ValueError, and whatever drawing raises. -/
inductive Err
  | attribute | type | name | value | draw (n : Nat)
deriving DecidableEq

/-! ## Attributes for one call -/

/-- Attributes (those of the class are found as well). -/
abbrev Attrs (V : Type) := String → Option V

variable {V : Type}

/-- A node: its attributes and which of them cannot be set (properties without a setter, objcat.py 323-360). -/
structure Node (V : Type) where
  attrs : Attrs V
  readOnly : String → Bool

/-- `setattr(self, k, v)`. -/
def setattr (n : Node V) (k : String) (v : V) : Node V × Option Err :=
  if n.readOnly k then (n, some .attribute) else ({ n with attrs := fun k' => if k' = k then some v else n.attrs k' }, none)

/-- A loop of `setattr`, which ends at the first exception. -/
def setAll (n : Node V) : List (String × V) → Node V × Option Err
  | [] => (n, none)
  | p :: l =>
    let r := setattr n p.1 p.2
    match r.2 with
    | some e => (r.1, some e)
    | none => setAll r.1 l

/-- `dict([(k, getattr(self, k)) for k in kwargs])`, objcat.py 3574. -/
def getAll (n : Node V) : List String → Except Err (List (String × V))
  | [] => .ok []
  | k :: l => match n.attrs k with
    | none => .error .attribute
    | some v => match getAll n l with
      | .error e => .error e
      | .ok r => .ok ((k, v) :: r)

/-- `MatplotAction._doAction`, objcat.py 3559-3588: `kwargs` in the order of the dictionary, `order` the order in which the dictionary of old values is
gone through, `draw` everything between (`clf`, `makePlot`, `title`, `savefig`), which may change attributes and raise. -/
def doAction (order : List (String × V) → List (String × V)) (draw : Node V → Node V × Option Err) (n : Node V) (kwargs : List (String × V)) : Node V × Option Err :=
  match getAll n (kwargs.map Prod.fst) with
  | .error e => (n, some e)
  | .ok old =>
    let r1 := setAll n kwargs
    let r2 := match r1.2 with
      | some e => (r1.1, some e)
      | none => draw r1.1
    let r3 := setAll r2.1 (order old)
    match r3.2 with
    | some e => (r3.1, some e)
    | none => (r3.1, r2.2)

/-- The loop of the constructor over `defaultattrs`, objcat.py 3547-3550: the attributes and the keywords that are left. -/
def initAttrs (n : Node V) : List (String × V) → List (String × V) → Node V × List (String × V)
  | [], kw => (n, kw)
  | (k, v) :: ds, kw =>
    match kw.find? (fun p => p.1 == k) with
    | some p => initAttrs (setattr n k p.2).1 ds (kw.filter fun q => q.1 != k)
    | none => initAttrs (setattr n k v).1 ds kw

/-- The constructor, objcat.py 3531-3553: `children` are those of the parent (`none` without one), `me` the new node.  The node is attached before its
keywords are looked at. -/
def construct {I : Type} (n : Node V) (me : I) (children : Option (List I)) (defaults kwargs : List (String × V)) : Node V × Option (List I) × Option Err :=
  let r := initAttrs n defaults kwargs
  (r.1, children.map (fun l => l ++ [me]), if r.2.isEmpty then none else some .type)

/-- `__setstate__`, objcat.py 492-497, on a new object: `cls` are the attributes its class provides; `d` is the pickled dictionary. -/
def setState (cls : Attrs V) (d : List (String × V)) : Attrs V :=
  d.foldl (fun (a : Attrs V) p => if (a p.1).isSome then a else fun k => if k = p.1 then some p.2 else a k) cls

/-! ## Plots of two fields -/

/-- A value with its upper and lower errors; `none` is masked. -/
structure Cell where
  val : Option ℝ
  err : Option (ℝ × ℝ)

/-- An object: the two fields. -/
structure Row where
  x : Cell
  y : Cell

/-- `np.log10`. -/
noncomputable def log10 (x : ℝ) : ℝ := Real.log x / Real.log 10

/-- An axis as a logarithm, objcat.py 3687-3701 (the error is no masked array any more; its values are the subject of C156). -/
noncomputable def logCell (c : Cell) : Cell := { c with val := c.val.map log10 }

/-- The order of `np.argsort` on a masked array: masked values are last. -/
noncomputable def before : Option ℝ → Option ℝ → Bool
  | some a, some b => decide (a ≤ b)
  | none, some _ => false
  | _, none => true

/-- What sorting is asked for: `ordering[4:]` of an ordering that begins with `sort`. -/
inductive SortBy
  | no | x | y
deriving DecidableEq

/-- The plot types. -/
inductive Kind
  | plot | errorbar | scatter | hist | other
deriving DecidableEq

/-- What is handed to matplotlib: the points, and for error bars the errors below and above in y and x (`none`: no bars at all). -/
structure Drawn where
  xs : List (Option ℝ)
  ys : List (Option ℝ)
  yerr : Option (List (ℝ × ℝ))
  xerr : Option (List (ℝ × ℝ))

/-- `xerr.filled(0).T.astype(float)[::-1]`, or `None` if everything is masked, objcat.py 3726-3733: pairs (lower, upper). -/
noncomputable def bars (es : List (Option (ℝ × ℝ))) : Option (List (ℝ × ℝ)) :=
  if es.all (fun e => e.isNone) then none else some (es.map fun e => match e with
    | none => (0, 0)
    | some (u, l) => (l, u))

/-- The rows after `logify` and `sort`, objcat.py 3687-3714. -/
noncomputable def arrange (logx logy : Bool) (sort : SortBy) (rows : List Row) : List Row :=
  let rs := rows.map fun r => ⟨if logx then logCell r.x else r.x, if logy then logCell r.y else r.y⟩
  match sort with
  | .no => rs
  | .x => rs.insertionSort (fun a b => before a.x.val b.x.val = true)
  | .y => rs.insertionSort (fun a b => before a.y.val b.y.val = true)

/-- `PlottingAction2D._doAction`, objcat.py 3660-3748.  After `logify` the errors are plain arrays without `mask`; `hist` is misspelt. -/
noncomputable def plot2d (kind : Kind) (logx logy : Bool) (sort : SortBy) (rows : List Row) : Except Err Drawn :=
  let rs := arrange logx logy sort rows
  let xs := rs.map fun r => r.x.val
  let ys := rs.map fun r => r.y.val
  match kind with
  | .plot => .ok ⟨xs, ys, none, none⟩
  | .errorbar =>
    if logx || logy then .error .attribute
    else .ok ⟨xs, ys, bars (rs.map fun r => r.y.err), bars (rs.map fun r => r.x.err)⟩
  | .scatter => .ok ⟨xs, ys, none, none⟩
  | .hist => .error .name
  | .other => .error .value

/-! ## Graphs -/

/-- `GraphAction._doAction`, objcat.py 4142-4155: the visited nodes and edges, `add_edge` called with one argument. -/
def graph {I : Type} : List (I × Option (I × I)) → Except Err (List I)
  | [] => .error .type
  | [p] => .ok [p.1]
  | _ :: _ :: _ => .error .type

end Verif.PlotAction
