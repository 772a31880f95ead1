import Mathlib.Data.List.Basic

/-!
# Model of `arrayToNodes` and `arrayToCatalog` (astropysics/objcat.py:2917-3182)

An array of values is a function of column (field) and row (node).  A node is a number, its fields are lists of
(source, value), the current one first.
Simplifications: values pass the type checks of the fields, field names can be assigned, the matcher looks at the number of
the row and the node and not at the values written before; notifiers are left out.
-/

namespace Verif.ArrayNodes

variable {V W : Type}

/-- Exceptions. -/
inductive Exc
  | value | index | type | unbound
deriving DecidableEq, Repr

/-- Keys of `fields`: a column number or the name of a column of a structured array. -/
inductive Key
  | idx (i : Nat)
  | nm (s : String)
deriving DecidableEq, Repr

/-- The shape of the array: one column, several columns, or a structured array with named columns. -/
inductive Layout
  | oned
  | twod
  | struct (names : List String)
deriving DecidableEq, Repr

/-- A converter with one argument, two arguments (value and row), or any number (`*args`). -/
inductive Conv (V W : Type)
  | one (f : V × Option (V × V) → W)
  | two (f : V × Option (V × V) → Nat → W)
  | star (f : V × Option (V × V) → Option Nat → W)

/-- The arguments; `val c i` is the value of column `c` in row `i`, `uerr` and `lerr` have the shape of the values. -/
structure Input (V W : Type) where
  layout : Layout
  ncols : Nat
  nrows : Nat
  val : Nat → Nat → V
  uerr : Option (Nat → Nat → V)
  lerr : Option (Nat → Nat → V)
  conv : Nat → Conv V W
  fields : List (Key × String)
  src : String
  setcurr : Bool

/-- A dictionary lookup. -/
def look (d : List (Key × String)) (k : Key) : Option String := (d.find? (fun p => p.1 = k)).map (·.2)

/-- The key of a column of a structured array; its name counts before its number (astropysics/objcat.py:3007-3015). -/
def fieldOf (inp : Input V W) (c : Nat) : Option String :=
  match inp.layout with
  | .struct names => match names[c]? with
    | some nm => match look inp.fields (.nm nm) with
      | some f => some f
      | none => look inp.fields (.idx c)
    | none => look inp.fields (.idx c)
  | _ => look inp.fields (.idx c)

/-- Does a key belong to some column (astropysics/objcat.py:3033-3045)? -/
def keyFound (inp : Input V W) : Key → Bool
  | .idx i => decide (i < inp.ncols)
  | .nm s => match inp.layout with
    | .struct names => decide (s ∈ names)
    | _ => false

/-- The checks of the arguments (astropysics/objcat.py:3016-3045): number of columns, keys that are not found. -/
def checked (inp : Input V W) : Except Exc Unit :=
  if inp.nrows = 0 then .error .index
  else match inp.layout with
    | .struct _ => if inp.fields.all (fun p => keyFound inp p.1) then .ok () else .error .value
    | .oned => if inp.fields.length = 1 ∧ inp.fields.all (fun p => keyFound inp p.1) then .ok () else .error .value
    | .twod => if inp.fields.length = inp.ncols ∧ inp.fields.all (fun p => keyFound inp p.1) then .ok () else .error .value

/-- `twoargseq` (astropysics/objcat.py:3056-3070): nothing is appended for a converter with `*args`. -/
def flags (inp : Input V W) : List Bool :=
  (List.range inp.ncols).filterMap (fun c => match inp.conv c with
    | .one _ => some false
    | .two _ => some true
    | .star _ => none)

/-- `errors[fiind][i]` (astropysics/objcat.py:3098-3100): of a structured array this is the record number `fiind` and its
field number `i`. -/
def errAt (inp : Input V W) (e : Nat → Nat → V) (c i : Nat) : Except Exc V :=
  match inp.layout with
  | .struct _ => if c < inp.nrows ∧ i < inp.ncols then .ok (e i c) else .error .index
  | _ => .ok (e c i)

/-- The value with its errors (astropysics/objcat.py:3098-3100). -/
def withErr (inp : Input V W) (c i : Nat) : Except Exc (V × Option (V × V)) :=
  match inp.uerr with
  | none => .ok (inp.val c i, none)
  | some ue => match errAt inp ue c i with
    | .error x => .error x
    | .ok u => match inp.lerr with
      | none => .ok (inp.val c i, some (u, u))
      | some le => match errAt inp le c i with
        | .error x => .error x
        | .ok l => .ok (inp.val c i, some (u, l))

/-- Calling a converter with one or two arguments (astropysics/objcat.py:3101-3104). -/
def call (f : Conv V W) (twoargs : Bool) (v : V × Option (V × V)) (i : Nat) : Except Exc W :=
  match f, twoargs with
  | .one f, false => .ok (f v)
  | .two f, true => .ok (f v i)
  | .star f, false => .ok (f v none)
  | .star f, true => .ok (f v (some i))
  | _, _ => .error .type

/-- What is stored for column `c` and row `i`. -/
def cellOf (inp : Input V W) (c i : Nat) : Except Exc W :=
  match withErr inp c i with
  | .error x => .error x
  | .ok v => match (flags inp)[c]? with
    | none => .error .index
    | some b => call (inp.conv c) b v i

/-- `fi[source] = v` (astropysics/objcat.py:1329-1348): in place if the source is there, else at the end. -/
def put (s : String) (v : W) : List (String × W) → List (String × W)
  | [] => [(s, v)]
  | x :: l => if x.1 = s then (s, v) :: l else x :: put s v l

/-- `fi.currentobj = source` (astropysics/objcat.py:1439-1454) for a source that is there. -/
def front (s : String) (l : List (String × W)) : List (String × W) :=
  match l.find? (fun x => x.1 = s) with
  | some x => x :: l.eraseP (fun x => x.1 = s)
  | none => l

/-- The nodes: field names, and the values in each field. -/
structure Store (W : Type) where
  names : Nat → List String
  vals : Nat → String → List (String × W)

/-- Change the values of one field of one node. -/
def Store.set (st : Store W) (n : Nat) (f : String) (l : List (String × W)) : Store W :=
  { st with vals := fun m g => if m = n ∧ g = f then l else st.vals m g }

/-- Store one value (astropysics/objcat.py:3101-3106). -/
def putCell (setcurr : Bool) (src : String) (v : W) (l : List (String × W)) : List (String × W) :=
  if setcurr then front src (put src v l) else put src v l

/-- `for fiind,v in enumerate(a)` (astropysics/objcat.py:3095-3106). -/
def writeCells (inp : Input V W) (n i : Nat) : List Nat → Store W → Store W × Except Exc Unit
  | [], st => (st, .ok ())
  | c :: cs, st => match fieldOf inp c with
    | none => writeCells inp n i cs st
    | some f => match cellOf inp c i with
      | .error x => (st, .error x)
      | .ok w => writeCells inp n i cs (st.set n f (putCell inp.setcurr inp.src w (st.vals n f)))

/-- `n.addField(fi)` for the fields the node does not have (astropysics/objcat.py:3091-3093). -/
def addNames (inp : Input V W) (n : Nat) : List Nat → Store W → Store W
  | [], st => st
  | c :: cs, st => match fieldOf inp c with
    | none => addNames inp n cs st
    | some f => if f ∈ st.names n then addNames inp n cs st
      else addNames inp n cs
        { names := fun m => if m = n then st.names n ++ [f] else st.names m,
          vals := fun m g => if m = n ∧ g = f then [] else st.vals m g }

/-- One row into one node (astropysics/objcat.py:3091-3106). -/
def writeRow (inp : Input V W) (n i : Nat) (st : Store W) : Store W × Except Exc Unit :=
  writeCells inp n i (List.range inp.ncols) (addNames inp n (List.range inp.ncols) st)

/-- The node for a row (astropysics/objcat.py:3078-3089): `n` keeps its last value when no node matches, which is the last
node looked at, or with no nodes left the node of the row before. -/
def choose (matcher : Option (Nat → Nat → Bool)) (i : Nat) (nodes : List Nat) (prev : Option Nat) : Option Nat × List Nat :=
  match matcher with
  | none => match nodes with
    | n :: rest => (some n, rest)
    | [] => (none, [])
  | some p => match nodes.find? (p i) with
    | some n => (some n, nodes.eraseP (p i))
    | none => ((nodes.getLast?).or prev, nodes)

/-- The loop over the rows (astropysics/objcat.py:3077-3106). -/
def rowLoop (inp : Input V W) (matcher : Option (Nat → Nat → Bool)) :
    List Nat → List Nat → Option Nat → Store W → Store W × Except Exc Unit
  | [], _, _, st => (st, .ok ())
  | i :: is, nodes, prev, st => match choose matcher i nodes prev with
    | (none, _) => (st, .error .unbound)
    | (some n, rest) => match writeRow inp n i st with
      | (st1, .error x) => (st1, .error x)
      | (st1, .ok _) => rowLoop inp matcher is rest (some n) st1

/-- `arrayToNodes` (astropysics/objcat.py:2917-3106) with a list of nodes. -/
def arrayToNodes (inp : Input V W) (matcher : Option (Nat → Nat → Bool)) (nodes : List Nat) (st : Store W) :
    Store W × Except Exc Unit :=
  match checked inp with
  | .error x => (st, .error x)
  | .ok _ =>
    if matcher.isNone ∧ inp.nrows ≠ nodes.length then (st, .error .value)
    else rowLoop inp matcher (List.range inp.nrows) nodes none st

/-- The name of a new node (astropysics/objcat.py:3166-3172): a default value in the field `namefield` is removed when it is
the only one. -/
def nameNode (src : String) (isNone : String → Bool) (i n : Nat) (st : Store W) : Option (String × (Nat → W)) → Store W
  | none => st
  | some (f, g) =>
    let old := if f ∈ st.names n then st.vals n f else []
    let old := if old.length = 1 ∧ old.any (fun x => isNone x.1) then [] else old
    { names := fun m => if m = n then (if f ∈ st.names n then st.names n else st.names n ++ [f]) else st.names m,
      vals := fun m h => if m = n ∧ h = f then put src (g i) old else st.vals m h }

/-- The nodes `arrayToCatalog` makes (astropysics/objcat.py:3162-3172): one, numbered from `base`, for every row the filter
accepts. -/
def makeNodes (filter : Nat → Bool) (src : String) (name : Option (String × (Nat → W))) (isNone : String → Bool) :
    List Nat → Nat → Store W → Store W × List Nat
  | [], _, st => (st, [])
  | i :: is, base, st =>
    if filter i then
      let r := makeNodes filter src name isNone is (base + 1) (nameNode src isNone i base st name)
      (r.1, base :: r.2)
    else makeNodes filter src name isNone is base st

/-- `arrayToCatalog` (astropysics/objcat.py:3108-3182): with a filter, the matcher accepts every node for the rows the
filter accepts. -/
def arrayToCatalog (inp : Input V W) (filter : Option (Nat → Bool)) (name : Option (String × (Nat → W)))
    (isNone : String → Bool) (base : Nat) (st : Store W) : (Store W × List Nat) × Except Exc Unit :=
  let r := makeNodes (filter.getD (fun _ => true)) inp.src name isNone (List.range inp.nrows) base st
  let r2 := arrayToNodes inp (filter.map (fun p i _ => p i)) r.2 r.1
  ((r2.1, r.2), r2.2)

end Verif.ArrayNodes
