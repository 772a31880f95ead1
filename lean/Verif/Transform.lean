import Mathlib.Data.List.Basic
import Mathlib.Data.List.Chain

/-!
# The coordinate transform registry (astropysics/coords/coordsys.py 727-1107, 1636-1742)

`CoordinateSystem.registerTransform`, `delTransform`, `addTransType`, `getTransform`,
`getTransformGraph`, `getTransformPath`, `convert`, and the matrix-combining
`LatLongCoordinates.convert(optimize=True)`.

Modelling choices.

* Classes are elements of a type `Cls` with decidable equality; objects are elements of `Obj` with
  `clsOf : Obj → Cls`.  Transformation functions are partial functions (`none`: raises).
* `_converters` (a dict of dicts) is an association list with unique keys; its order stands for the
  (unspecified) dict iteration order.  Empty inner dicts left behind by defaultdict reads are
  invisible through the API and not represented.
* networkx is external: `nx.shortest_path(g,a,b,weight=True)` is a parameter `sp` (edges, source,
  target) whose contract (`ShortestPath`, in TransformProps.lean) is a path with the fewest edges:
  `weight=True` names an edge attribute that does not exist, so every edge counts 1.  `none` is the
  exception it raises when there is no path.
-/

namespace Verif.Transform

variable {Cls Obj Val : Type}

/-- A transformation type function `ttf(trans, coords, toclass)`. -/
abbrev Wrap (Cls Obj Val : Type) := Val → Obj → Cls → Option Obj

/-- coordsys.py 882-894: what is stored for a pair of classes: the function itself, or the closure
`lambda cobj: ttf(func(cobj),cobj,toclass)`. -/
inductive Conv (Cls Obj Val : Type) where
  | plain (f : Obj → Option Obj)
  | typed (ty : String) (base : Obj → Option Val) (wrap : Wrap Cls Obj Val) (target : Cls)

/-- Calling a stored converter. -/
def Conv.call : Conv Cls Obj Val → Obj → Option Obj
  | .plain f, o => f o
  | .typed _ base wrap target, o => (base o).bind (fun v => wrap v o target)

/-- The class-level state of CoordinateSystem (coordsys.py 792-793, 1048, 1075). -/
structure State (Cls Obj Val : Type) where
  conv : List ((Cls × Cls) × Conv Cls Obj Val) := []
  transtypes : List (String × Wrap Cls Obj Val) := []
  graph : Option (List (Cls × Cls)) := none

/-- Why an operation failed. -/
inductive Err where
  | valueError   -- occupied pair, overwrite=False
  | keyError     -- unknown transformation type / pair
  | noPath       -- networkx found no path
  | funcError    -- a transformation function raised
deriving DecidableEq, Repr

/-- dict lookup. -/
def lookup {K V : Type} [DecidableEq K] (l : List (K × V)) (k : K) : Option V :=
  (l.find? (fun p => p.1 = k)).map (·.2)

/-- dict assignment: in place if the key exists, at the end otherwise. -/
def assign {K V : Type} [DecidableEq K] : List (K × V) → K → V → List (K × V)
  | [], k, v => [(k, v)]
  | p :: l, k, v => if p.1 = k then (k, v) :: l else p :: assign l k v

/-- dict deletion. -/
def remove {K V : Type} [DecidableEq K] : List (K × V) → K → List (K × V)
  | [], _ => []
  | p :: l, k => if p.1 = k then l else p :: remove l k

/-- The function handed to registerTransform: plain, or typed with the name of its type. -/
inductive Func (Obj Val : Type) where
  | plain (f : Obj → Option Obj)
  | typed (ty : String) (base : Obj → Option Val)

variable [DecidableEq Cls]

/-- coordsys.py 1077-1083. -/
def invalidate (s : State Cls Obj Val) : State Cls Obj Val := { s with graph := none }

/-- coordsys.py 872-896, `registerTransform` with a function (the class checks are typing). -/
def register (s : State Cls Obj Val) (a b : Cls) (f : Func Obj Val) (overwrite : Bool) :
    Except Err (State Cls Obj Val) :=
  if !overwrite && (lookup s.conv (a, b)).isSome then .error .valueError
  else match f with
    | .plain f => .ok (invalidate { s with conv := assign s.conv (a, b) (.plain f) })
    | .typed ty base =>
      match lookup s.transtypes ty with
      | none => .error .keyError
      | some w => .ok (invalidate { s with conv := assign s.conv (a, b) (.typed ty base w b) })

/-- coordsys.py 899-903. -/
def getTransform (s : State Cls Obj Val) (a b : Cls) : Except Err (Conv Cls Obj Val) :=
  match lookup s.conv (a, b) with
  | none => .error .keyError
  | some c => .ok c

/-- coordsys.py 941-946. -/
def delTransform (s : State Cls Obj Val) (a b : Cls) : Except Err (State Cls Obj Val) :=
  match lookup s.conv (a, b) with
  | none => .error .keyError
  | some _ => .ok (invalidate { s with conv := remove s.conv (a, b) })

/-- The base function of the last converter of type `ty`. -/
def lastBase (ty : String) :
    List ((Cls × Cls) × Conv Cls Obj Val) → Option (Obj → Option Val)
  | [] => none
  | (_, .typed t base _ _) :: l =>
    match lastBase ty l with
    | some b => some b
    | none => if t = ty then some base else none
  | (_, .plain _) :: l => lastBase ty l

/-- The second class of the last pair. -/
def lastTo : List ((Cls × Cls) × Conv Cls Obj Val) → Option Cls
  | [] => none
  | (k, _) :: l => match lastTo l with
    | some c => some c
    | none => some k.2

/-- coordsys.py 986-1000, `regtrans`.  If the type exists, all its converters are replaced by
`lambda cobj: func(btfunc(cobj),cobj,k2)`; `btfunc` and `k2` are local variables of `regtrans`, so
when any of these closures is called later they have their *last* values.  The caches are not
invalidated. -/
def addTransType (s : State Cls Obj Val) (ty : String) (w : Wrap Cls Obj Val) :
    State Cls Obj Val :=
  let conv := match lookup s.transtypes ty, lastBase ty s.conv, lastTo s.conv with
    | some _, some btfunc, some k2 => s.conv.map (fun p => match p.2 with
        | .typed t _ _ _ => if t = ty then (p.1, .typed t btfunc w k2) else p
        | .plain _ => p)
    | _, _, _ => s.conv
  { s with conv := conv, transtypes := assign s.transtypes ty w }

/-- coordsys.py 905-914, `listAllTransforms`. -/
def listAll (s : State Cls Obj Val) : List (Cls × Cls) := s.conv.map (·.1)

/-- coordsys.py 1049-1072, `getTransformGraph`: the cached graph, built if missing. -/
def getGraph (s : State Cls Obj Val) : List (Cls × Cls) × State Cls Obj Val :=
  match s.graph with
  | some g => (g, s)
  | none => (listAll s, { s with graph := some (listAll s) })

/-- A shortest-path oracle. -/
abbrev SP (Cls : Type) := List (Cls × Cls) → Cls → Cls → Option (List Cls)

/-- coordsys.py 1012-1046, `getTransformPath`: the direct transform or a list of classes. -/
inductive Path (Cls Obj Val : Type) where
  | direct (c : Conv Cls Obj Val)
  | via (classes : List Cls)

def getPath (sp : SP Cls) (s : State Cls Obj Val) (a b : Cls) :
    Except Err (Path Cls Obj Val) × State Cls Obj Val :=
  match lookup s.conv (a, b) with
  | some c => (.ok (.direct c), s)
  | none =>
    match sp (getGraph s).1 a b with
    | some p => (.ok (.via p), (getGraph s).2)
    | none => (.error .noPath, (getGraph s).2)

/-- Call a converter of the registry. -/
def step (s : State Cls Obj Val) (a b : Cls) (o : Obj) : Except Err Obj :=
  match lookup s.conv (a, b) with
  | none => .error .keyError
  | some c => match c.call o with
    | none => .error .funcError
    | some o' => .ok o'

/-- coordsys.py 1102-1106: the loop over the intermediate systems. -/
def walk (s : State Cls Obj Val) : Cls → Obj → List Cls → Except Err (Cls × Obj)
  | curr, o, [] => .ok (curr, o)
  | curr, o, c :: cs => match step s curr c o with
    | .error e => .error e
    | .ok o' => walk s c o' cs

/-- coordsys.py 1085-1107, `CoordinateSystem.convert`. -/
def convert (sp : SP Cls) (clsOf : Obj → Cls) (s : State Cls Obj Val) (o : Obj) (tosys : Cls) :
    Except Err Obj × State Cls Obj Val :=
  match getPath sp s (clsOf o) tosys with
  | (.error e, s') => (.error e, s')
  | (.ok (.direct c), s') => (match c.call o with
      | none => .error .funcError
      | some o' => .ok o', s')
  | (.ok (.via p), s') => (match walk s' (clsOf o) o (p.tail.dropLast) with
      | .error e => .error e
      | .ok (curr, o') => step s' curr tosys o', s')

/-- coordsys.py 1664-1665, 1727-1728: `LatLongCoordinates.convert` without optimisation. -/
def convertLatLong (sp : SP Cls) (clsOf : Obj → Cls) (s : State Cls Obj Val) (o : Obj)
    (tosys : Cls) : Except Err Obj × State Cls Obj Val :=
  if tosys = clsOf o then (.ok o, s) else convert sp clsOf s o tosys

/-! ## Histories -/

/-- The calls that touch the registry. -/
inductive Op (Cls Obj Val : Type) where
  | register (a b : Cls) (f : Func Obj Val) (overwrite : Bool)
  | del (a b : Cls)
  | addType (ty : String) (w : Wrap Cls Obj Val)
  | graph                      -- getTransformGraph, or any path query

/-- One call; a raising call leaves the state as it was. -/
def exec (s : State Cls Obj Val) : Op Cls Obj Val → Except Err (State Cls Obj Val)
  | .register a b f ow => register s a b f ow
  | .del a b => delTransform s a b
  | .addType ty w => .ok (addTransType s ty w)
  | .graph => .ok (getGraph s).2

def run (s : State Cls Obj Val) : List (Op Cls Obj Val) → State Cls Obj Val
  | [] => s
  | op :: ops => match exec s op with
    | .ok s' => run s' ops
    | .error _ => run s ops

/-! ## Decorators -/

/-- coordsys.py 862-870 and 734-744: `n` stacked `@registerTransform(a,b)` decorators on one method;
the result is the list of registered pairs, `none` if the class definition raises TypeError.
`f` is the decorated object: `none` is Python's None. -/
inductive Deco (Cls : Type) where
  | func
  | deco (pairs : List (Cls × Cls))
  | none_

def applyDeco (pair : Cls × Cls) : Deco Cls → Option (Deco Cls)
  | .func => some (.deco [pair])
  | .deco _ => some .none_          -- appends to the decorator object, but returns nothing
  | .none_ => none                  -- not callable: TypeError

def stack : List (Cls × Cls) → Option (Deco Cls)
  | [] => some .func
  | p :: ps => (stack ps).bind (applyDeco p)     -- the lowest decorator is applied first

def registered : Deco Cls → List (Cls × Cls)
  | .deco ps => ps
  | _ => []

/-! ## Matrix-combining conversion -/

/-- One step of a conversion path: an `smatrix` transform with its matrix, or another function.
The matrices are taken to be independent of the coordinates, as the documentation requires. -/
inductive Leg (M Obj : Type) where
  | smatrix (m : M)
  | other (f : Obj → Obj)

/-- coordsys.py 1688-1712: the combining loop.  `cls` is the target class of the combined matrix
(here left to `applyM`); `combinedmatrix` is never reset. -/
def combine {M Obj : Type} [Mul M] : Option M → List (Leg M Obj) → List (Leg M Obj)
  | none, [] => []
  | some cm, [] => [.smatrix cm]
  | none, .smatrix m :: ls => combine (some m) ls
  | some cm, .smatrix m :: ls => combine (some (m * cm)) ls
  | none, .other f :: ls => .other f :: combine none ls
  | some cm, .other f :: ls => .smatrix cm :: .other f :: combine (some cm) ls

/-- Applying the legs in order. -/
def applyLegs {M Obj : Type} (applyM : M → Obj → Obj) : List (Leg M Obj) → Obj → Obj
  | [], o => o
  | .smatrix m :: ls, o => applyLegs applyM ls (applyM m o)
  | .other f :: ls, o => applyLegs applyM ls (f o)

/-- coordsys.py 1664-1725 with `optimize=True` on a path that is not a direct transform. -/
def convertOptimized {M Obj : Type} [Mul M] (applyM : M → Obj → Obj) (path : List (Leg M Obj))
    (o : Obj) : Obj :=
  applyLegs applyM (combine none path) o

end Verif.Transform
