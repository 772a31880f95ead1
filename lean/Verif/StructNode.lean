import Verif.FieldNode

/-!
# Model of `StructuredFieldNode` (astropysics/objcat.py:2654-2887)

One node of a class with declared fields.  A field's values are kept in full; what they are worth is in `Verif.Field`.
A class attribute is a `Field`, or a pair of a `DerivedValue` and a `Field` (made by `derivedFieldFunc`).
Simplifications: the source and type checks of `Field.insert` accept the derived value of the class; warnings are not
recorded; the other attributes of the node do not have the names of the fields.
-/

namespace Verif.StructNode

open Verif.FieldNode (Str readOnly)

/-- A value in a field: its source, what it is, and for a derived value the function (by identity). -/
structure SV where
  src : String
  val : Int
  der : Option Nat
deriving DecidableEq, Repr

/-- A `Field` object: its values, current one first, and its description and units. -/
structure Fld where
  vals : List SV
  info : Option String
deriving DecidableEq, Repr

/-- A field declared by the class: name, default value (`None in fi`), derived value, description and units. -/
structure Decl where
  name : Str
  dflt : Option Int
  der : Option Nat
  info : Option String
deriving DecidableEq, Repr

/-- An attribute of the node: `absent` means that the class attribute shows through. -/
inductive Attr
  | absent
  | none
  | fld (f : Fld)
deriving DecidableEq, Repr

/-- A node. -/
structure Node where
  names : List Str
  attr : Str → Attr
  altered : Bool

/-- Exceptions. -/
inductive Exc
  | value | key | attribute | index
deriving DecidableEq, Repr

/-- The derived value of the class, `DerivedValue(dv._f, ...)`. -/
def derVal (d : Nat) : SV := ⟨"derived", 0, some d⟩

/-- The values of a new field: the default (astropysics/objcat.py:2728-2735), the derived value in front of it (2743-2747). -/
def initVals (c : Decl) : List SV :=
  (c.der.map derVal).toList ++ (c.dflt.map (fun v => (⟨"None", v, none⟩ : SV))).toList

/-- The declaration of a name. -/
def find (cls : List Decl) (nm : Str) : Option Decl := List.find? (fun c => c.name = nm) cls

/-- `__init__` (astropysics/objcat.py:2709-2747); `cls` in the order of `inspect.getmembers` (by name). -/
def create (cls : List Decl) : Node where
  names := cls.map (·.name)
  attr nm := match find cls nm with
    | some c => .fld ⟨initVals c, c.info⟩
    | none => .absent
  altered := false

/-- `addField` of a new field (astropysics/objcat.py:2879-2882, 554-567). -/
def addField (s : Node) (nm : Str) (vals : List SV) : Node × Except Exc Unit :=
  let s1 := { s with altered := true }
  if nm ∈ s1.names then (s1, .error .value)
  else if readOnly nm then (s1, .error .attribute)
  else ({ s1 with names := s1.names ++ [nm], attr := FieldNode.upd s1.attr nm (.fld ⟨vals, none⟩) }, .ok ())

/-- `delField` (astropysics/objcat.py:2884-2887, 569-577). -/
def delField (cls : List Decl) (s : Node) (nm : Str) : Node × Except Exc Unit :=
  let s1 := { s with altered := true }
  if nm ∈ s1.names then
    ({ s1 with names := s1.names.erase nm,
               attr := FieldNode.upd s1.attr nm (if (find cls nm).isSome then .none else .absent) }, .ok ())
  else (s1, .error .key)

/-- Any change of the values of a field the node lists. -/
def edit (s : Node) (nm : Str) (g : List SV → List SV) : Node × Except Exc Unit :=
  if nm ∈ s.names then
    match s.attr nm with
    | .fld f => ({ s with attr := FieldNode.upd s.attr nm (.fld { f with vals := g f.vals }) }, .ok ())
    | _ => (s, .error .attribute)
  else (s, .error .index)

/-- `revert` (astropysics/objcat.py:2831-2877): `hasattr(self,k) is hasattr(self.__class__,k)` holds for every field of the
class, so each is replaced by a new one (without description and units); other `Field`s are removed. -/
def revert (cls : List Decl) (s : Node) : Node where
  names := cls.map (·.name)
  attr nm := match find cls nm with
    | some c => .fld ⟨initVals c, none⟩
    | none => match s.attr nm with
      | .fld _ => .absent
      | a => a
  altered := false

/-- Public calls. -/
inductive Op
  | add (nm : Str) (vals : List SV)
  | del (nm : Str)
  | edit (nm : Str) (g : List SV → List SV)
  | revert

/-- One call. -/
def step (cls : List Decl) (s : Node) : Op → Node × Except Exc Unit
  | .add nm vals => addField s nm vals
  | .del nm => delField cls s nm
  | .edit nm g => edit s nm g
  | .revert => (revert cls s, .ok ())

/-- A history. -/
def run (cls : List Decl) (s : Node) (ops : List Op) : Node := ops.foldl (fun s op => (step cls s op).1) s

/-! ## Pickling -/

/-- What is saved: names, fields without derived values, the flag, the positions of the class's derived values. -/
structure Saved where
  names : List Str
  fields : Str → Option Fld
  altered : Bool
  currderind : Str → Option Nat

/-- `Field.__getstate__` (astropysics/objcat.py:1133-1146): derived values are left out. -/
def pruned (f : Fld) : Fld := { f with vals := f.vals.filter (fun v => v.der.isNone) }

/-- `fi.index(dv)` of the last value made from the class's function (astropysics/objcat.py:2759-2762; equal values are the
same object). -/
def lastIdx (d : Nat) : List SV → Option Nat
  | [] => none
  | v :: l => match lastIdx d l with
    | some i => some (i + 1)
    | none => if v.der = some d then some 0 else none

/-- `__getstate__` (astropysics/objcat.py:2749-2767, 539-545); `none`: a listed name is no field. -/
def save (cls : List Decl) (s : Node) : Saved where
  names := s.names
  fields nm := if nm ∈ s.names then (match s.attr nm with
    | .fld f => some (pruned f)
    | _ => none) else none
  altered := s.altered
  currderind nm := match find cls nm with
    | some c => match c.der, s.attr nm with
      | some d, .fld f => if nm ∈ s.names then lastIdx d f.vals else none
      | _, _ => none
    | none => none

/-- Re-insert the class's derived value (astropysics/objcat.py:2781-2794). -/
def reinsert (ind : Option Nat) (d : Nat) (f : Fld) : Fld :=
  let i := min (ind.getD 0) f.vals.length
  { f with vals := f.vals.take i ++ derVal d :: f.vals.drop i }

/-- The class variable `checkonload` (astropysics/objcat.py:2691-2706, 2770). -/
inductive Check
  | off | warn | raise | revert
deriving DecidableEq, Repr

/-- The node read back, before the check (astropysics/objcat.py:2771-2794, 546-553). -/
def restored (cls : List Decl) (p : Saved) : Node where
  names := p.names
  attr nm := match p.fields nm with
    | none => .absent
    | some f => match find cls nm with
      | none => .fld f
      | some c => match c.der with
        | none => .fld f
        | some d => .fld (reinsert (p.currderind nm) d f)
  altered := p.altered

/-- Is the attribute no `Field`? -/
def noField : Attr → Bool
  | .fld _ => false
  | _ => true

/-- The consistency check (astropysics/objcat.py:2797-2807): a declared field that is not there, or one that is not
declared. -/
def inconsistent (cls : List Decl) (s : Node) : Bool :=
  cls.any (fun c => noField (s.attr c.name)) || s.names.any (fun nm => (find cls nm).isNone)

/-- `__setstate__` (astropysics/objcat.py:2771-2819). -/
def load (cls : List Decl) (check : Check) (p : Saved) : Except Exc Node :=
  let s := restored cls p
  if check = .off then .ok s
  else if inconsistent cls s then
    match check with
    | .raise => .error .value
    | .revert => .ok (revert cls s)
    | _ => .ok s
  else .ok s

end Verif.StructNode
