import Verif.PyList

/-!
# Model of the node graph of astropysics/objcat.py (`CatalogNode`, lines 99-400)

Nodes are numbered by creation; `parent` is `_parent`, `kids` is `_children`.
-/

namespace Verif.Catalog

open Verif

/-- Exceptions of the modelled calls. `attributeError`: appending to the `()` of an `ActionNode`;
`recursionError`: Python's recursion limit. -/
inductive Exc
  | cycleError | valueError | attributeError | indexError | nameError | recursionError
deriving DecidableEq, Repr

/-- What kind of node (astropysics/objcat.py:425, 498, 2525). -/
inductive Kind
  | action | field | catalog
deriving DecidableEq, Repr

/-- The object graph: number of nodes created, and for each its kind, `_parent` and `_children`
(astropysics/objcat.py:113-121). -/
structure Forest where
  size : Nat
  kind : Nat → Kind
  parent : Nat → Option Nat
  kids : Nat → List Nat

/-- No nodes yet. -/
def empty : Forest := ⟨0, fun _ => .catalog, fun _ => none, fun _ => []⟩

/-- Assignment of one entry of a function. -/
def set {α : Type} (f : Nat → α) (n : Nat) (v : α) : Nat → α := fun m => if m = n then v else f m

/-- `_cycleCheck` (astropysics/objcat.py:129-139): walks up from `self`; the fuel is Python's recursion
limit. -/
def cycleCheck (h : Forest) (src : Nat) : Nat → Nat → Except Exc Unit
  | 0, _ => .error .recursionError
  | fuel + 1, self =>
    if self = src then .error .cycleError
    else match h.parent self with
      | none => .ok ()
      | some p => cycleCheck h src fuel p

/-- Remove the first occurrence (the `enumerate`/`del` loop of astropysics/objcat.py:148-155), `none` when
absent. -/
def delFirst (n : Nat) : List Nat → Option (List Nat)
  | [] => none
  | c :: cs => if c = n then some cs else (delFirst n cs).map (c :: ·)

/-- The second half of `_setParent` (astropysics/objcat.py:148-156): removal from the old parent's children,
then the assignment of `_parent`. -/
def detach (h : Forest) (n : Nat) (val : Option Nat) : Forest × Except Exc Unit :=
  match h.parent n with
  | none => ({ h with parent := set h.parent n val }, .ok ())
  | some p =>
    match delFirst n (h.kids p) with
    | none => (h, .error .valueError)
    | some cs => ({ h with kids := set h.kids p cs, parent := set h.parent n val }, .ok ())

/-- `_setParent` (astropysics/objcat.py:143-156).  The recursion limit is taken as larger than the number of
nodes.  An `ActionNode` has a tuple for `_children`, so appending to it raises
(astropysics/objcat.py:462). -/
def setParent (h : Forest) (n : Nat) (val : Option Nat) : Forest × Except Exc Unit :=
  match val with
  | none => detach h n none
  | some v =>
    match cycleCheck h n (h.size + 1) v with
    | .error e => (h, .error e)
    | .ok _ =>
      if h.kind v = .action then (h, .error .attributeError)
      else detach { h with kids := set h.kids v (h.kids v ++ [n]) } n (some v)

/-- Construction of a node (astropysics/objcat.py:116-121); if the parent assignment raises, there is no new
object. -/
def create (h : Forest) (k : Kind) (par : Option Nat) : Forest × Except Exc Unit :=
  let h0 : Forest := { size := h.size + 1, kind := set h.kind h.size k,
                       parent := set h.parent h.size none, kids := set h.kids h.size [] }
  match par with
  | none => (h0, .ok ())
  | some p =>
    match setParent h0 h.size (some p) with
    | (h1, .ok _) => (h1, .ok ())
    | (_, .error e) => (h, .error e)

/-- `addChild` (astropysics/objcat.py:207-214). -/
def addChild (h : Forest) (self node : Nat) : Forest × Except Exc Unit :=
  if h.kind node ≠ .field then (h, .error .valueError) else setParent h node (some self)

/-- `removeChild` (astropysics/objcat.py:216-225).  `node in self` is `Catalog.__contains__`
(astropysics/objcat.py:2546-2550), a list membership test with `==`: `eqv` says which distinct nodes compare
equal (`FieldNode.__cmp__`, astropysics/objcat.py:603-607, compares field values).  For a `FieldNode` the test is
about field names (astropysics/objcat.py:612) and fails for every node. -/
def removeChild (eqv : Nat → Nat → Bool) (h : Forest) (self node : Nat) : Forest × Except Exc Unit :=
  if h.kind self = .catalog ∧ (h.kids self).any (fun c => c == node || eqv c node) then setParent h node none
  else (h, .error .valueError)

/-- Indexing with an array of (possibly negative) indices. -/
def fancy (l : List Nat) : List Int → Option (List Nat)
  | [] => some []
  | i :: is =>
    match Py.get? l i, fancy l is with
    | some x, some xs => some (x :: xs)
    | _, _ => none

/-- The `neworder` argument of `reorderChildren`. `sort f`: the callable branch, which calls `list.sort()`;
`f` is what the sort does to the list. -/
inductive Order
  | reverse
  | inds (is : List Int) (inverse : Bool)
  | sort (f : List Nat → List Nat)

/-- `reorderChildren` (astropysics/objcat.py:165-205).  With `inverseinds` the name `argsort` is undefined.
Simplification: `np.array(self._children,dtype=object)` is read as the one-dimensional array of the nodes. -/
def reorder (h : Forest) (n : Nat) : Order → Forest × Except Exc Unit
  | .reverse => ({ h with kids := set h.kids n (h.kids n).reverse }, .ok ())
  | .sort f => ({ h with kids := set h.kids n (f (h.kids n)) }, .ok ())
  | .inds is inverse =>
    if is.length ≠ (h.kids n).length then (h, .error .valueError)
    else if ¬ is.Nodup then (h, .error .valueError)
    else if inverse then (h, .error .nameError)
    else match fancy (h.kids n) is with
      | none => (h, .error .indexError)
      | some cs => ({ h with kids := set h.kids n cs }, .ok ())

/-- The loop of `mergeNode` over a snapshot of the children (astropysics/objcat.py:2588-2595). `take` is
the negation of the skip condition. Returns the number of moved nodes (`i+countoffset`). -/
def mergeLoop (take : Nat → Bool) (self : Nat) : Forest → List Nat → Nat → Forest × Except Exc Nat
  | h, [], k => (h, .ok k)
  | h, c :: cs, k =>
    if take c then
      match setParent h c (some self) with
      | (h', .error e) => (h', .error e)
      | (h', .ok _) => mergeLoop take self h' cs (k + 1)
    else mergeLoop take self h cs k

/-- `Catalog.mergeNode` (astropysics/objcat.py:2566-2597). -/
def mergeNode (take : Nat → Bool) (h : Forest) (self node : Nat) : Forest × Except Exc Nat :=
  mergeLoop take self h (h.kids node) 0

/-- `idstr` (astropysics/objcat.py:236-253) as (depth, index, root); the root's own is `none`.  The loops run
up the parents (fuel as above). -/
def rootDepth (h : Forest) : Nat → Nat → Option (Nat × Nat)
  | 0, _ => none
  | fuel + 1, n =>
    match h.parent n with
    | none => some (0, n)
    | some p => (rootDepth h fuel p).map (fun (d, r) => (d + 1, r))

/-- `idstr` (astropysics/objcat.py:236-253): `Root@id` or `depth/index/Root@id`. -/
inductive IdStr
  | root (r : Nat)
  | sub (depth index root : Nat)
deriving DecidableEq, Repr

/-- `idstr` (astropysics/objcat.py:236-253). -/
def idstr (h : Forest) (n : Nat) : Option IdStr :=
  match h.parent n with
  | none => some (.root n)
  | some p => (rootDepth h (h.size + 1) n).map (fun (d, r) => .sub d ((h.kids p).findIdx (· = n)) r)

/-! ## Histories -/

/-- Public calls that change the graph. Node arguments that do not exist yet are ignored (there is no such
object to call with). -/
inductive Op
  | create (k : Kind) (par : Option Nat)
  | setParent (n : Nat) (val : Option Nat)
  | addChild (self node : Nat)
  | removeChild (self node : Nat)
  | reorder (n : Nat) (o : Order)
  | merge (take : Nat → Bool) (self node : Nat)

/-- The objects a call mentions. -/
def Op.nodes : Op → List Nat
  | .create _ par => par.toList
  | .setParent n val => n :: val.toList
  | .addChild a b => [a, b]
  | .removeChild a b => [a, b]
  | .reorder n _ => [n]
  | .merge _ a b => [a, b]

/-- One call (a call on objects that do not exist is no call). -/
def step (eqv : Nat → Nat → Bool) (h : Forest) (op : Op) : Forest :=
  if op.nodes.all (· < h.size) then
    match op with
    | .create k par => (create h k par).1
    | .setParent n val => (setParent h n val).1
    | .addChild a b => (addChild h a b).1
    | .removeChild a b => (removeChild eqv h a b).1
    | .reorder n o => (reorder h n o).1
    | .merge take a b => (mergeNode take h a b).1
  else h

/-- A history of calls. -/
def run (eqv : Nat → Nat → Bool) (h : Forest) (ops : List Op) : Forest := ops.foldl (step eqv) h

end Verif.Catalog
