import Verif.PyList

/-!
# Model of `Field` (astropysics/objcat.py:1098-1485)

A `Source` is its string (C21: there is one object per string); a `FieldValue` object has an identity, a source,
whether it is a `DerivedValue`, how it fares in `checkType`, and a value.  `notes` logs the
`notifyValueChange(old,new)` calls (a registered, live notifier is assumed).
Simplifications: a `DependentSource` is truthy (it has dependencies); keys are those accepted by `__getitem__`.
-/

namespace Verif.Field

open Verif

/-- Outcome of `checkType` for this field's type: accepted, rejected but convertible by `float()`
(astropysics/objcat.py:1244-1252), rejected. -/
inductive Ty
  | good | floatable | bad
deriving DecidableEq, Repr

/-- A `FieldValue` object (astropysics/objcat.py:1850-1990). -/
structure Val where
  oid : Nat
  src : String
  derived : Bool
  ty : Ty
  val : Int
deriving DecidableEq, Repr

/-- Exceptions. -/
inductive Exc
  | keyError | indexError | valueError | typeError
deriving DecidableEq, Repr

/-- Keys (astropysics/objcat.py:1302-1326): an index, a `Source` object, a string (or None, which names the source
"None"), or a string 'derivedN'. -/
inductive Key
  | int (i : Int)
  | source (s : String)
  | str (s : String)
  | derived (n : Int)
deriving DecidableEq, Repr

/-- The state of a `Field`: `_vals`, the derived values that already have a field, the notification log. -/
structure State where
  vals : List Val
  owned : List Nat
  notes : List (Option Val × Option Val)
deriving DecidableEq, Repr

/-- What is assigned: a `FieldValue`, or a plain value (to be wrapped with the key as source). -/
inductive In
  | obj (v : Val)
  | raw (oid : Nat) (ty : Ty) (val : Int)
deriving DecidableEq, Repr

/-- The source named by a key when a plain value is wrapped, `ObservedValue(key,val)`
(astropysics/objcat.py:1333, 1346, 1905). -/
def Key.asSource : Key → String
  | .int i => toString i
  | .source s => s
  | .str s => s
  | .derived n => "derived" ++ toString n

/-- Position of `self[key]` in `_vals` (astropysics/objcat.py:1302-1326 and `_vals.index(self[key])`). -/
def find (vals : List Val) : Key → Except Exc Nat
  | .int i => match Py.idx vals.length i with
    | some k => .ok k
    | none => .error .indexError
  | .source s => match vals.findIdx? (fun v => v.src = s) with
    | some k => .ok k
    | none => .error .keyError
  | .str s => match vals.findIdx? (fun v => v.src = s) with
    | some k => .ok k
    | none => .error .keyError
  | .derived n =>
    let ders := vals.filter (fun v => v.derived)
    if (ders.length : Int) ≤ n then .error .indexError
    else match Py.get? ders n with
      | none => .error .indexError
      | some v => match vals.findIdx? (fun w => w.oid = v.oid) with
        | some k => .ok k
        | none => .error .valueError

/-- `dosrccheck` (astropysics/objcat.py:1227-1241). -/
inductive Check
  | present
  | expect (s : String)
  | off
deriving DecidableEq, Repr

/-- The source check (astropysics/objcat.py:1227-1241). -/
def srcOk (f : State) (v : Val) : Check → Bool
  | .present => !(f.vals.any (fun w => w.src = v.src))
  | .expect s => v.src = s
  | .off => true

/-- The type check (astropysics/objcat.py:1243-1252), made only together with a source check. -/
def tyOk (v : Val) : Check → Bool
  | .off => true
  | _ => v.ty ≠ .bad

/-- The float conversion after a failed type check (astropysics/objcat.py:1246-1250). -/
def coerce (v : Val) : Check → Val
  | .off => v
  | _ => if v.ty = .floatable then { v with ty := .good } else v

/-- `_checkConvInVal` on a `FieldValue` (astropysics/objcat.py:1201-1259): source check, type check (with float
conversion), ownership of derived values. -/
def conv (f : State) (v : Val) (c : Check) : Except Exc (State × Val) :=
  if srcOk f v c = false then .error .valueError
  else if tyOk v c = false then .error .typeError
  else if v.derived then
    if v.oid ∈ f.owned then .error .valueError
    else .ok ({ f with owned := v.oid :: f.owned }, coerce v c)
  else .ok (f, coerce v c)

/-- `notifyValueChange` (astropysics/objcat.py:1261-1281). -/
def notify (f : State) (old new : Option Val) : State := { f with notes := f.notes ++ [(old, new)] }

/-- The object a plain value is wrapped in. -/
def In.wrapped (k : Key) : In → Val
  | .obj v => v
  | .raw oid ty val => ⟨oid, k.asSource, false, ty, val⟩

/-- The first branch of `__setitem__`: position `p`, notification if `isZero` (`i == 0`)
(astropysics/objcat.py:1330-1337). -/
def replaceAt (f : State) (p : Nat) (isZero : Bool) (v : Val) : State × Except Exc Unit :=
  match f.vals[p]? with
  | none => (f, .error .indexError)
  | some old =>
    match conv f v (.expect old.src) with
    | .error e => (f, .error e)
    | .ok (f1, v') =>
      let f2 := if isZero then notify f1 f1.vals[0]? (some v') else f1
      ({ f2 with vals := f2.vals.set p v' }, .ok ())

/-- The last branch of `__setitem__`: a new value at the end (astropysics/objcat.py:1343-1348). -/
def appendNew (f : State) (v : Val) : State × Except Exc Unit :=
  match conv f v .present with
  | .error e => (f, .error e)
  | .ok (f1, v') => ({ f1 with vals := f1.vals ++ [v'] }, .ok ())

/-- `__setitem__` with a key that is not an int (astropysics/objcat.py:1329-1348). -/
def setByKey (f : State) (k : Key) (inp : In) : State × Except Exc Unit :=
  match find f.vals k with
  | .ok p => replaceAt f p (decide (p = 0)) (inp.wrapped k)
  | .error _ => appendNew f (inp.wrapped k)

/-- `__setitem__` (astropysics/objcat.py:1329-1348). -/
def setitem (f : State) (k : Key) (inp : In) : State × Except Exc Unit :=
  match k with
  | .int i =>
    match Py.idx f.vals.length i with
    | none => (f, .error .indexError)
    | some p => replaceAt f p (decide (i = 0)) (inp.wrapped k)
  | _ => setByKey f k inp

/-- The test `if i==0` of `__delitem__` (astropysics/objcat.py:1351-1357): an int key is compared as given, any other
key by the position found. -/
def Key.isZero (k : Key) (p : Nat) : Bool :=
  match k with
  | .int i => decide (i = 0)
  | _ => decide (p = 0)

/-- `__delitem__` (astropysics/objcat.py:1350-1358). -/
def delitem (f : State) (k : Key) : State × Except Exc Unit :=
  match find f.vals k with
  | .error e => (f, .error e)
  | .ok p =>
    let f1 := if k.isZero p then notify f f.vals[0]? f.vals[1]? else f
    ({ f1 with vals := f1.vals.eraseIdx p }, .ok ())

/-- The source check `insert` asks for (astropysics/objcat.py:1360-1367): with a `Source` key the value only has to match
that source. -/
def insertCheck : Key → Check
  | .source s => .expect s
  | _ => .present

/-- `_nocheckinsert` at an index (astropysics/objcat.py:1369-1378).  Note the order of the arguments of
`notifyValueChange`. -/
def insertAt (f : State) (i : Int) (v : Val) : State × Except Exc Unit :=
  let f2 := if i = 0 then notify f (some v) f.vals[0]? else f
  ({ f2 with vals := Py.insert f2.vals i v }, .ok ())

/-- `insert` and `_nocheckinsert` (astropysics/objcat.py:1360-1378). -/
def insert (f : State) (k : Key) (v : Val) : State × Except Exc Unit :=
  match conv f v (insertCheck k) with
  | .error e => (f, .error e)
  | .ok (f1, v') =>
    match k with
    | .int i => insertAt f1 i v'
    | _ => match find f1.vals k with
      | .error e => (f1, .error e)
      | .ok p => insertAt f1 p v'

/-- `append`, inherited from `MutableSequence`: `self.insert(len(self), value)`. -/
def append (f : State) (v : Val) : State × Except Exc Unit := insert f (.int f.vals.length) v

/-- `_setCurr` with a key (astropysics/objcat.py:1439-1453); a missing key is an error because keys do not convert to
values (except that a string of two characters that names no source is taken as a (source,value) pair: that case is
`setCurrObj`). -/
def setCurrKey (f : State) (k : Key) : State × Except Exc Unit :=
  match find f.vals k with
  | .error _ => (f, .error .typeError)
  | .ok p =>
    match f.vals[p]? with
    | none => (f, .error .typeError)
    | some v =>
      let f1 := { f with vals := f.vals.eraseIdx p }
      let f2 := notify f1 f.vals[0]? (some v)
      ({ f2 with vals := v :: f2.vals }, .ok ())

/-- `_setCurr` with a `FieldValue` (or a (source,value) pair, which becomes one)
(astropysics/objcat.py:1439-1453). -/
def setCurrObj (f : State) (v : Val) : State × Except Exc Unit :=
  match conv f v .off with
  | .error e => (f, .error e)
  | .ok (f1, v') =>
    let f2 := if f1.vals.any (fun w => w.src = v'.src) then (delitem f1 (.source v'.src)).1 else f1
    let f3 := notify f2 f.vals[0]? (some v')
    ({ f3 with vals := v' :: f3.vals }, .ok ())

/-- Public calls. -/
inductive Op
  | setitem (k : Key) (inp : In)
  | delitem (k : Key)
  | insert (k : Key) (v : Val)
  | append (v : Val)
  | setCurrKey (k : Key)
  | setCurrObj (v : Val)
deriving DecidableEq, Repr

/-- One call. -/
def step (f : State) : Op → State × Except Exc Unit
  | .setitem k inp => setitem f k inp
  | .delitem k => delitem f k
  | .insert k v => insert f k v
  | .append v => append f v
  | .setCurrKey k => setCurrKey f k
  | .setCurrObj v => setCurrObj f v

/-- A new `Field`. -/
def init : State := ⟨[], [], []⟩

/-- A history of calls. -/
def run (f : State) (ops : List Op) : State := ops.foldl (fun f op => (step f op).1) f

/-- `__call__`/`currentobj` (astropysics/objcat.py:1164-1165, 1434-1438): the first value, IndexError if there is
none. -/
def current (f : State) : Option Val := f.vals[0]?

/-- `__len__` (astropysics/objcat.py:1166). -/
def len (f : State) : Nat := f.vals.length

/-- `field[key]` (astropysics/objcat.py:1302-1326). -/
def getitem (f : State) (k : Key) : Except Exc Val :=
  match find f.vals k with
  | .error e => .error e
  | .ok p => match f.vals[p]? with
    | some v => .ok v
    | none => .error .indexError

end Verif.Field
