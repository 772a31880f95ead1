import Verif.Field

/-!
# Model of `FieldNode` (astropysics/objcat.py:498-786)

A heap of `Field` objects (contents: `Verif.Field.State`) and of nodes (`_fieldnames` and the attributes).  A node keeps its
fields alive and is itself alive, so the weak reference `field.node` is the node's number.
Simplifications: a field has a name when it is added (a field without a name makes `setattr` raise TypeError); names of
methods of the node are allowed (the attribute then hides the method), names of its slots (leading underscore) are not.
-/

namespace Verif.FieldNode

open Verif
open Verif.Field (Val State)

/-- Names. -/
abbrev Str := List Char

/-- Exceptions. -/
inductive Exc
  | value | key | index | attribute | field (e : Verif.Field.Exc)
deriving DecidableEq, Repr

/-- What an attribute of a node is: nothing of its own (perhaps a class attribute), `None`, or a `Field`. -/
inductive Attr
  | absent
  | none
  | fld (f : Nat)
deriving DecidableEq, Repr

/-- All nodes and fields. -/
structure Heap where
  nfields : Nat
  fname : Nat → Str
  field : Nat → State
  owner : Nat → Option Nat
  names : Nat → List Str
  attr : Nat → Str → Attr

/-- No nodes with fields yet (`__init__`, astropysics/objcat.py:525-534, without keyword arguments). -/
def empty : Heap := ⟨0, fun _ => [], fun _ => Verif.Field.init, fun _ => none, fun _ => [], fun _ _ => .absent⟩

/-- Function update. -/
def upd {α β : Type} [DecidableEq α] (g : α → β) (a : α) (b : β) : α → β := fun x => if x = a then b else g x

/-- Attributes that cannot be assigned a field: the properties without setter of `CatalogNode` and `FieldNode`
(astropysics/objcat.py:156, 227, 655-680), and `parent`, whose setter (137-152) calls a method fields do not have. -/
def readOnly (nm : Str) : Bool :=
  decide (nm ∈ ["parent", "children", "nnodes", "fieldnames", "values", "sourcenames", "fielddict"].map String.toList)

/-- `Field(name)` (astropysics/objcat.py:1116-1130). -/
def newField (h : Heap) (nm : Str) : Heap :=
  { h with nfields := h.nfields + 1, fname := upd h.fname h.nfields nm }

/-- `addField` with a `Field` (astropysics/objcat.py:554-567): the attribute is assigned before the field's node is
looked at. -/
def addField (h : Heap) (n f : Nat) : Heap × Except Exc Unit :=
  let nm := h.fname f
  if nm ∈ h.names n then (h, .error .value)
  else if readOnly nm then (h, .error .attribute)
  else
    let h1 := { h with attr := upd h.attr n (upd (h.attr n) nm (.fld f)) }
    match h.owner f with
    | some _ => (h1, .error .value)
    | none => ({ h1 with owner := upd h1.owner f (some n), names := upd h1.names n (h1.names n ++ [nm]) }, .ok ())

/-- `addField` with a name (astropysics/objcat.py:555-556). -/
def addName (h : Heap) (n : Nat) (nm : Str) : Heap × Except Exc Unit := addField (newField h nm) n h.nfields

/-- `delField`, `del node[name]` (astropysics/objcat.py:569-577, 652-653); `cls`: the class has an attribute of that
name. -/
def delField (cls : Str → Bool) (h : Heap) (n : Nat) (nm : Str) : Heap × Except Exc Unit :=
  if nm ∈ h.names n then
    ({ h with names := upd h.names n ((h.names n).erase nm)
              attr := upd h.attr n (upd (h.attr n) nm (if cls nm then .none else .absent)) }, .ok ())
  else (h, .error .key)

/-- Keys of `node[key]`. -/
inductive Key
  | name (k : Str)
  | int (i : Int)
deriving DecidableEq, Repr

/-- What is read: the value, the source or the errors of the current `FieldValue`. -/
inductive What
  | value | source | errors
deriving DecidableEq, Repr

/-- `key[:-4]` if the key ends in the suffix of four characters. -/
def cut (suf k : Str) : Option Str := if suf.isSuffixOf k then some (k.take (k.length - 4)) else none

/-- The name a key stands for (astropysics/objcat.py:616-631); the name need not be one of the fields'. -/
def resolve (h : Heap) (n : Nat) : Key → Except Exc (What × Str)
  | .name k =>
    if k ∈ h.names n then .ok (.value, k)
    else match cut "_src".toList k with
      | some b => .ok (.source, b)
      | none => match cut "_err".toList k with
        | some b => .ok (.errors, b)
        | none => .error .index
  | .int i => match Py.get? (h.names n) i with
    | some k => .ok (.value, k)
    | none => .error .index

/-- `node[key]` (astropysics/objcat.py:615-641): the current value of the field, `None` if there is none, and which part
of it. -/
def getItem (h : Heap) (n : Nat) (k : Key) : Except Exc (What × Option Val) :=
  match resolve h n k with
  | .error e => .error e
  | .ok (w, b) => match h.attr n b with
    | .fld f => .ok (w, Verif.Field.current (h.field f))
    | _ => .error .attribute

/-- `list(node)`: `Sequence.__iter__` reads `node[0]`, `node[1]`, ... up to the IndexError. -/
def iterate (h : Heap) (n : Nat) : Nat → Nat → List (What × Option Val)
  | 0, _ => []
  | fuel + 1, i => match getItem h n (.int i) with
    | .ok v => v :: iterate h n fuel (i + 1)
    | .error _ => []

/-- What is assigned to an item: a key of the field (to be made current) or a `FieldValue` (or (source, value) pair). -/
inductive Asg
  | key (k : Verif.Field.Key)
  | obj (v : Val)
deriving DecidableEq, Repr

/-- `field.currentobj = val` (astropysics/objcat.py:1439-1454). -/
def setCurr (s : State) : Asg → State × Except Verif.Field.Exc Unit
  | .key k => Verif.Field.setCurrKey s k
  | .obj v => Verif.Field.setCurrObj s v

/-- Wrap the outcome of a call on a field. -/
def wrapExc : Except Verif.Field.Exc Unit → Except Exc Unit
  | .ok _ => .ok ()
  | .error e => .error (.field e)

/-- The name meant by `node[key] = val` (astropysics/objcat.py:644-648); here the suffixes are not known. -/
def target (h : Heap) (n : Nat) : Key → Option Str
  | .name k => if k ∈ h.names n then some k else none
  | .int i => Py.get? (h.names n) i

/-- `node[key] = val` (astropysics/objcat.py:643-650). -/
def setItem (h : Heap) (n : Nat) (k : Key) (a : Asg) : Heap × Except Exc Unit :=
  match target h n k with
  | none => (h, .error .index)
  | some nm => match h.attr n nm with
    | .fld f => ({ h with field := upd h.field f (setCurr (h.field f) a).1 }, wrapExc (setCurr (h.field f) a).2)
    | _ => (h, .error .attribute)

/-- `src in field` (astropysics/objcat.py:1168-1174). -/
def inField (s : State) (k : Verif.Field.Key) : Bool :=
  match Verif.Field.getitem s k with
  | .ok _ => true
  | .error _ => false

/-- The loop of `setToSource` over the fields (astropysics/objcat.py:723-727); `strict`: `missing='raise'`, otherwise
fields without that source are passed over ('skip', 'warn'). -/
def srcLoop (k : Verif.Field.Key) (strict : Bool) (n : Nat) : List Str → Heap → Heap × Except Exc Unit
  | [], h => (h, .ok ())
  | nm :: l, h => match h.attr n nm with
    | .fld f =>
      if inField (h.field f) k then
        srcLoop k strict n l { h with field := upd h.field f (setCurr (h.field f) (.key k)).1 }
      else if strict then (h, .error .value)
      else srcLoop k strict n l h
    | _ => (h, .error .attribute)

/-- `setToSource` (astropysics/objcat.py:689-727) with a `Source` (`.source s`) or 'derived' (`.derived 0`). -/
def setToSource (h : Heap) (n : Nat) (k : Verif.Field.Key) (strict : Bool) : Heap × Except Exc Unit :=
  srcLoop k strict n (h.names n) h

/-- Public calls. -/
inductive Op
  | newField (nm : Str)
  | addField (n f : Nat)
  | addName (n : Nat) (nm : Str)
  | delField (n : Nat) (nm : Str)
  | setItem (n : Nat) (k : Key) (a : Asg)
  | setToSource (n : Nat) (k : Verif.Field.Key) (strict : Bool)
  | onField (f : Nat) (op : Verif.Field.Op)

/-- One call; field objects that do not exist cannot be passed. -/
def step (cls : Str → Bool) (h : Heap) : Op → Heap × Except Exc Unit
  | .newField nm => (newField h nm, .ok ())
  | .addField n f => if f < h.nfields then addField h n f else (h, .ok ())
  | .addName n nm => addName h n nm
  | .delField n nm => delField cls h n nm
  | .setItem n k a => setItem h n k a
  | .setToSource n k strict => setToSource h n k strict
  | .onField f op => ({ h with field := upd h.field f (Verif.Field.step (h.field f) op).1 },
      wrapExc (Verif.Field.step (h.field f) op).2)

/-- A history. -/
def run (cls : Str → Bool) (h : Heap) (ops : List Op) : Heap := ops.foldl (fun h op => (step cls h op).1) h

/-- `values` (astropysics/objcat.py:660-668); `none` stands for the empty text put for fields without values. -/
def values (h : Heap) (n : Nat) : List (Option Val) :=
  (h.names n).map (fun nm => match h.attr n nm with
    | .fld f => Verif.Field.current (h.field f)
    | _ => none)

end Verif.FieldNode
