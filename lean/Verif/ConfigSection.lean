/-!
# A configuration section as an ordered dictionary (astropysics/external/configobj.py 488-760, 838-870, 1025-1040)

`Section.__setitem__`, `__delitem__`, `get`, `pop`, `popitem`, `clear`, `setdefault`, `update`, `rename`, `restore_default`, `keys`, `items`.
Values are abstract: all that matters is whether a value is a section (a dictionary that is assigned becomes one) and whether it is acceptable
when `stringify` is off (a string or a list of strings).  `rd` is what reading an item does to the stored value (interpolation, see
`ConfigInterp`).  `comments` and `inline_comments` always change together and are one dictionary here.  Keys are strings.
-/

namespace Verif.ConfigSection

/-- The exceptions. -/
inductive Err
  | key | type | value | interp
deriving DecidableEq

/-- A dictionary. -/
abbrev Dict (V : Type) := List (String × V)

variable {V : Type}

/-- `d.get(k)`. -/
def look : Dict V → String → Option V
  | [], _ => none
  | (k', v) :: d, k => if k' = k then some v else look d k

/-- `d[k] = v`. -/
def put : Dict V → String → V → Dict V
  | [], k, v => [(k, v)]
  | (k', v') :: d, k, v => if k' = k then (k, v) :: d else (k', v') :: put d k v

/-- `del d[k]`. -/
def del (d : Dict V) (k : String) : Dict V := d.filter fun p => decide (p.1 ≠ k)

/-- What matters about the values. -/
structure Kinds (V : Type) where
  isSect : V → Bool
  isText : V → Bool
  rd : String → V → Except Err V

/-- The comment above an entry and the one beside it. -/
abbrev Com := List String × String

/-- A section, configobj.py 528-543 (`configspec`, `extra_values` and `_created` are left out). -/
structure Sec (V : Type) where
  items : Dict V
  scalars : List String
  sections : List String
  comments : Dict Com
  defaults : List String
  defaultValues : Dict V

/-- `_initialise`, configobj.py 526-543. -/
def empty : Sec V := ⟨[], [], [], [], [], []⟩

/-- `key in self`. -/
def has (s : Sec V) (k : String) : Bool := (look s.items k).isSome

/-- The common beginning of `__setitem__`, configobj.py 602-608. -/
def noted (s : Sec V) (k : String) : Sec V :=
  { s with comments := if (look s.comments k).isSome then s.comments else put s.comments k ([], ""), defaults := s.defaults.erase k }

/-- `section[k] = v`, configobj.py 584-640: the key is listed before the value is checked. -/
def setitem (K : Kinds V) (stringify : Bool) (s : Sec V) (k : String) (v : V) : Sec V × Option Err :=
  let s1 := noted s k
  if K.isSect v then
    ({ s1 with sections := if has s k then s1.sections else s1.sections ++ [k], items := put s1.items k v }, none)
  else
    let s2 := { s1 with scalars := if has s k then s1.scalars else s1.scalars ++ [k] }
    if stringify || K.isText v then ({ s2 with items := put s2.items k v }, none) else (s2, some .type)

/-- `del section[k]`, configobj.py 643-651. -/
def delitem (s : Sec V) (k : String) : Sec V × Option Err :=
  if has s k then
    let s1 := { s with items := del s.items k }
    if k ∈ s.scalars then
      if (look s.comments k).isSome then ({ s1 with scalars := s.scalars.erase k, comments := del s.comments k }, none)
      else ({ s1 with scalars := s.scalars.erase k }, some .key)
    else if k ∈ s.sections then
      if (look s.comments k).isSome then ({ s1 with sections := s.sections.erase k, comments := del s.comments k }, none)
      else ({ s1 with sections := s.sections.erase k }, some .key)
    else (s1, some .value)
  else (s, some .key)

/-- `section[k]`. -/
def getitem (K : Kinds V) (s : Sec V) (k : String) : Except Err V :=
  match look s.items k with
  | none => .error .key
  | some v => K.rd k v

/-- `pop(k)` and `pop(k, default)`, configobj.py 671-686.  Interpolation errors are no KeyErrors. -/
def pop (K : Kinds V) (s : Sec V) (k : String) (d : Option V) : Sec V × Except Err V :=
  match getitem K s k with
  | .error .key => match d with
    | none => (s, .error .key)
    | some d => (s, .ok d)
  | .error e => (s, .error e)
  | .ok v =>
    let r := delitem s k
    match r.2 with
    | some e => (r.1, .error e)
    | none => (r.1, .ok v)

/-- `popitem`, configobj.py 689-697. -/
def popitem (K : Kinds V) (s : Sec V) : Sec V × Except Err (String × V) :=
  match s.scalars ++ s.sections with
  | [] => (s, .error .key)
  | k :: _ => match getitem K s k with
    | .error e => (s, .error e)
    | .ok v =>
      let r := delitem s k
      match r.2 with
      | some e => (r.1, .error e)
      | none => (r.1, .ok (k, v))

/-- `clear`, configobj.py 700-715: the default values stay. -/
def clear (s : Sec V) : Sec V := { s with items := [], scalars := [], sections := [], comments := [], defaults := [] }

/-- `setdefault`, configobj.py 718-724. -/
def setdefault (K : Kinds V) (stringify : Bool) (s : Sec V) (k : String) (d : V) : Sec V × Except Err V :=
  match getitem K s k with
  | .error .key =>
    let r := setitem K stringify s k d
    match r.2 with
    | some e => (r.1, .error e)
    | none => (r.1, getitem K r.1 k)
  | r => (s, r)

/-- `update`, configobj.py 663-668: item by item, until an exception. -/
def update (K : Kinds V) (stringify : Bool) (s : Sec V) : List (String × V) → Sec V × Option Err
  | [] => (s, none)
  | p :: l =>
    let r := setitem K stringify s p.1 p.2
    match r.2 with
    | some e => (r.1, some e)
    | none => update K stringify r.1 l

/-- `the_list.remove(old); the_list.insert(pos, new)`, configobj.py 855-864. -/
def replaceKey (l : List String) (old new : String) : List String := (l.erase old).insertIdx (l.idxOf old) new

/-- The end of `rename`, configobj.py 858-870; `lists` says what happens to the two lists. -/
def renamed (s : Sec V) (old new : String) (v : V) : Sec V × Option Err :=
  match look s.comments old with
  | none => ({ s with items := put (del s.items old) new v }, some .key)
  | some c => ({ s with items := put (del s.items old) new v, comments := put (del s.comments old) new c }, none)

/-- `rename`, configobj.py 838-870. -/
def rename (K : Kinds V) (s : Sec V) (old new : String) : Sec V × Option Err :=
  if old ∈ s.scalars then
    match getitem K s old with
    | .error e => (s, some e)
    | .ok v =>
      let r := renamed s old new v
      ({ r.1 with scalars := replaceKey s.scalars old new }, r.2)
  else if old ∈ s.sections then
    match getitem K s old with
    | .error e => (s, some e)
    | .ok v =>
      let r := renamed s old new v
      ({ r.1 with sections := replaceKey s.sections old new }, r.2)
  else (s, some .key)

/-- `restore_default`, configobj.py 1025-1037: the value goes into the dictionary only. -/
def restoreDefault (s : Sec V) (k : String) : Sec V × Except Err V :=
  match look s.defaultValues k with
  | none => (s, .error .key)
  | some d => ({ s with items := put s.items k d, defaults := if k ∈ s.defaults then s.defaults else s.defaults ++ [k] }, .ok d)

/-- `keys()`, configobj.py 733-735. -/
def keys (s : Sec V) : List String := s.scalars ++ s.sections

/-- The list comprehension of `values()`, configobj.py 738-740. -/
def valuesOf (K : Kinds V) (s : Sec V) : List String → Except Err (List V)
  | [] => .ok []
  | k :: l => match getitem K s k with
    | .error e => .error e
    | .ok v => match valuesOf K s l with
      | .error e => .error e
      | .ok vs => .ok (v :: vs)

/-- `values()`. -/
def values (K : Kinds V) (s : Sec V) : Except Err (List V) := valuesOf K s (keys s)

/-- `items()`, configobj.py 728-730. -/
def items (K : Kinds V) (s : Sec V) : Except Err (List (String × V)) :=
  match values K s with
  | .error e => .error e
  | .ok vs => .ok ((keys s).zip vs)

/-- The operations that change a section. -/
inductive Op (V : Type)
  | set (k : String) (v : V)
  | del (k : String)
  | pop (k : String) (d : Option V)
  | popitem
  | clear
  | setdefault (k : String) (d : V)
  | rename (old new : String)
  | restore (k : String)

/-- One operation. -/
def step (K : Kinds V) (stringify : Bool) (s : Sec V) : Op V → Sec V
  | .set k v => (setitem K stringify s k v).1
  | .del k => (delitem s k).1
  | .pop k d => (pop K s k d).1
  | .popitem => (popitem K s).1
  | .clear => clear s
  | .setdefault k d => (setdefault K stringify s k d).1
  | .rename old new => (rename K s old new).1
  | .restore k => (restoreDefault s k).1

end Verif.ConfigSection
