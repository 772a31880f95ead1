import Mathlib.Data.List.Basic
import Mathlib.Data.List.Forall2
import Mathlib.Data.List.Nodup
import Mathlib.Data.Nat.Find

/-!
# `DataObjectRegistry` (astropysics/utils/gen.py 227-406): named objects and groups (C96)

`phot.bands` and `obstools.sites` are such registries.  Names are character lists.  A Python dict is a list of pairs with distinct
keys; the order of a Python 2 dict is arbitrary, here it is the order of insertion, and no theorem depends on it except through
"the values in some order".  Objects have a type `V`; whether an object has the type of the registry (`datatype`) and its `name`
attribute are functions; objects are not themselves mappings (`isMappingType`, line 340).  Names and group names are byte strings.
-/

namespace Verif.Registry

abbrev Name := List Char

inductive Err where
  | keyError | valueError | typeError | runtimeError | loopsForever
deriving DecidableEq, Repr

/-- `d[k] = v` of a dict. -/
def put {β : Type} (k : Name) (v : β) : List (Name × β) → List (Name × β)
  | [] => [(k, v)]
  | (k', v') :: l => if k' = k then (k, v) :: l else (k', v') :: put k v l

/-- `d.get(k)`. -/
def get {β : Type} (k : Name) : List (Name × β) → Option β
  | [] => none
  | (k', v) :: l => if k' = k then some v else get k l

/-- The registry: `dict` content and `_groupdict` (gen.py 232-236). -/
structure Reg (V : Type) where
  objs : List (Name × V)
  groups : List (Name × List Name)

/-- What `reg[name]` returns: an object, or for a group a dict. -/
inductive Val (V : Type) where
  | obj (v : V)
  | dict (d : List (Name × Val V))

/-- Is there a `datatype`, which objects have it, and the `name` attribute of objects. -/
structure Kind (V : Type) where
  typed : Bool
  ok : V → Bool
  name : V → Option Name

section
variable {V : Type}

/-- `[f d for d in data]`, stopping at the first exception. -/
def mapE {α β : Type} (f : α → Except Err β) : List α → Except Err (List β)
  | [] => .ok []
  | a :: l =>
    match f a with
    | .error e => .error e
    | .ok b =>
      match mapE f l with
      | .error e => .error e
      | .ok bs => .ok (b :: bs)

/-- `(d,self[d])`. -/
def pair (d : Name) : Except Err (Val V) → Except Err (Name × Val V)
  | .error e => .error e
  | .ok v => .ok (d, v)

/-- `__getitem__`, gen.py 238-244.  The first argument is the number of nested calls Python allows (RuntimeError beyond). -/
def getItem (r : Reg V) : Nat → Name → Except Err (Val V)
  | 0, _ => .error .runtimeError
  | f + 1, k =>
    match get k r.groups with
    | some data =>
      match mapE (fun d => pair d (getItem r f d)) data with
      | .error e => .error e
      | .ok l => .ok (.dict (l.foldl (fun d p => put p.1 p.2 d) []))
    | none =>
      match get k r.objs with
      | some v => .ok (.obj v)
      | none => .error .keyError

/-- `__delitem__`, gen.py 245-249: `dict.__delitem__(key)` is called without the dict. -/
def delItem (r : Reg V) (_k : Name) : Except Err Unit × Reg V := (.error .typeError, r)

/-- `removeGroup`, gen.py 304-311: the method has no `self` parameter. -/
def removeGroup (r : Reg V) (_g : Name) : Except Err Unit × Reg V := (.error .typeError, r)

/-- The loop of `register` over the objects, gen.py 272-275. -/
def addAll (K : Kind V) : List (Name × V) → List (Name × V) → Except Err Unit × List (Name × V)
  | [], o => (.ok (), o)
  | (k, v) :: l, o => if !K.typed || K.ok v then addAll K l (put k v o) else (.error .valueError, o)

/-- `register(objects,groupname)`, gen.py 257-284.  `gs` are the group names: none, one string or several. -/
def register (K : Kind V) (r : Reg V) (objects : List (Name × V)) (gs : List Name) : Except Err Unit × Reg V :=
  match addAll K objects r.objs with
  | (.error e, o) => (.error e, { r with objs := o })
  | (.ok _, o) => (.ok (), { objs := o, groups := gs.foldl (fun d g => put g (objects.map Prod.fst) d) r.groups })

/-- `addToGroup(key,group)`, gen.py 290-302. -/
def addToGroup (limit : Nat) (r : Reg V) (k g : Name) : Except Err Unit × Reg V :=
  match getItem r limit k with
  | .error e => (.error e, r)
  | .ok _ =>
    let cur := (get g r.groups).getD []
    (.ok (), { r with groups := put g (if k ∈ cur then cur else cur ++ [k]) r.groups })

/-- An element of a requested sequence: a name or an object. -/
inductive Req (V : Type) where
  | name (n : Name)
  | obj (v : V)

/-- The argument of `getObjects`. -/
inductive Arg (V : Type) where
  | str (s : Name)
  | seq (l : List (Req V))

def lower (s : Name) : Name := s.map Char.toLower
def isSpace (c : Char) : Bool := c == ' ' || c == '\t' || c == '\n' || c == '\r'
def strip (s : Name) : Name := ((s.dropWhile isSpace).reverse.dropWhile isSpace).reverse

/-- `s.split(',')`. -/
def splitComma : Name → List Name
  | [] => [[]]
  | c :: l =>
    if c = ',' then [] :: splitComma l
    else
      match splitComma l with
      | [] => [[c]]
      | p :: ps => (c :: p) :: ps

/-- `obj.values()` of a dict, or `(obj,)`: gen.py 339-343. -/
def valuesOf : Val V → List (Val V)
  | .dict d => d.map Prod.snd
  | .obj v => [.obj v]

open Classical in
/-- The generated names `dataname##` (gen.py 365-368): `while dataname+str(j) not in self: j+=1` ends at the first number whose name IS
registered, and never if there is none. -/
noncomputable def autoName (dataname : Name) (num : Nat → Name) (objs : List (Name × V)) : Option Name :=
  if h : ∃ j, (get (dataname ++ num (j + 1)) objs).isSome = true then some (dataname ++ num (Nat.find h + 1)) else none

variable [DecidableEq V]

/-- gen.py 353-369 for the objects of a sequence: check of the type and `addmissing`. -/
noncomputable def addMissing (K : Kind V) (dataname : Name) (num : Nat → Name) (addmissing : Bool) :
    List (Req V) → List (Name × V) → Except Err Unit × List (Name × V)
  | [], o => (.ok (), o)
  | .name _ :: l, o => addMissing K dataname num addmissing l o
  | .obj v :: l, o =>
    if K.ok v = false then (.error .valueError, o)
    else if addmissing && !(o.map Prod.snd).contains v then
      match K.name v with
      | some n =>
        if (get n o).isSome then (.error .keyError, o)
        else addMissing K dataname num addmissing l (put n v o)
      | none =>
        match autoName dataname num o with
        | some n => addMissing K dataname num addmissing l (put n v o)
        | none => (.error .loopsForever, o)
    else addMissing K dataname num addmissing l o

/-- One element of a sequence: gen.py 351. -/
def getReq (limit : Nat) (r : Reg V) : Req V → Except Err (Val V)
  | .name n => getItem r limit n
  | .obj v => .ok (.obj v)

/-- `getObjects`, gen.py 316-376. -/
noncomputable def getObjects (K : Kind V) (dataname : Name) (num : Nat → Name) (limit : Nat) (r : Reg V) (a : Arg V) (addmissing : Bool) :
    Except Err (List (Val V)) × Reg V :=
  match a with
  | .str s =>
    if lower s = "all".toList then (.ok (r.objs.map fun p => .obj p.2), r)
    else if ',' ∈ s then (mapE (fun t => getItem r limit (strip t)) (splitComma s), r)
    else if (get s r.objs).isSome then
      match getItem r limit s with
      | .error e => (.error e, r)
      | .ok v => (.ok (valuesOf v), r)
    else
      match get s r.groups with
      | some data => (mapE (getItem r limit) data, r)
      | none => (mapE (fun c => getItem r limit [c]) (strip s), r)
  | .seq l =>
    match mapE (getReq limit r) l with
    | .error e => (.error e, r)
    | .ok objs =>
      match (if K.typed then addMissing K dataname num addmissing l r.objs else (.ok (), r.objs)) with
      | (.error e, o) => (.error e, { r with objs := o })
      | (.ok _, o) => (.ok objs, { r with objs := o })

end
end Verif.Registry
