import Mathlib.Data.List.Nodup
/-!
# VOTables: `VOTableReader` (utils/io.py 1026-1359)

The XML tokeniser (`xml.dom.pulldom`) is outside the model: the input is the sequence of events it yields,
with `expandNode` already applied (so the inside of PARAM, FIELD, DESCRIPTION and TABLEDATA is part of their
start event and their end events are never seen, as in the code).  Conversion of a cell's text to the column
type is numpy's (`arr[i][j] = text`) and a parameter.
-/
namespace Verif.VOTable

abbrev Str := List Char

/-- exceptions raised by the constructor and the getters -/
inductive Err where
  | notImpl | runtime | unbound | type | value | key | index | attr | unicode
  deriving DecidableEq, Repr

/-- Attributes of a PARAM or FIELD element and the texts of the DESCRIPTION elements inside it
(`none`: an empty DESCRIPTION element, whose `firstChild` is None). -/
structure Elem where
  attrs : List (Str × Str)
  descs : List (Option Str)
  deriving DecidableEq, Repr

/-- contents of one child of a TR element: a TD with no children, with a text, with an element as first
child (`nodeValue` None), or anything else, white space included -/
inductive Cell where
  | empty | text (s : Str) | elem | other
  deriving DecidableEq, Repr

/-- a child of TABLEDATA: a TR, white space, or anything else -/
inductive Node where
  | tr (cells : List Cell) | blank | other
  deriving DecidableEq, Repr

/-- events of the pull parser that the loop distinguishes (io.py 1083-1190) -/
inductive Ev where
  | resStart (name : Option Str)
  | resEnd
  | tabStart (ref : Bool) (name nrows : Option Str)
  | tabEnd
  | dataStart
  | tabledata (nodes : List Node)
  | unsupported          -- BINARY, FITS, GROUP
  | param (e : Elem)
  | field (e : Elem)
  | desc (t : Option Str)  -- text of the first child, `none` if it has none
  | other                -- all other elements, end of DATA, characters
  deriving DecidableEq, Repr

def get? (k : Str) : List (Str × Str) → Option Str
  | [] => none
  | (a, v) :: r => if a = k then some v else get? k r

/-- `d[k] = v` -/
def dset {α : Type} (k : Str) (v : α) : List (Str × α) → List (Str × α)
  | [] => [(k, v)]
  | (a, w) :: r => if a = k then (k, v) :: r else (a, w) :: dset k v r

/-- `d.get(k)` -/
def dget {α : Type} (k : Str) : List (Str × α) → Option α
  | [] => none
  | (a, v) :: r => if a = k then some v else dget k r

/-- `str(u)` of a unicode text: fails outside ASCII -/
def asStr (s : Str) : Except Err Str :=
  if s.all (fun c => decide (c.val < 128)) then .ok s else .error .unicode

/-- `dtypemap` (io.py 1033-1044): `none` unknown (KeyError), `some none` for "bit" -/
def dtypemap (s : Str) : Option (Option Str) :=
  if s = "boolean".toList then some (some ['b'])
  else if s = "bit".toList then some none
  else if s = "unsignedByte".toList then some (some ['u', '1'])
  else if s = "short".toList then some (some ['i', '2'])
  else if s = "int".toList then some (some ['i', '4'])
  else if s = "long".toList then some (some ['i', '8'])
  else if s = "char".toList then some (some ['a'])
  else if s = "unicodeChar".toList then some (some ['U'])
  else if s = "float".toList then some (some ['f', '4'])
  else if s = "double".toList then some (some ['f', '8'])
  else if s = "floatComplex".toList then some (some ['c', '8'])
  else if s = "doubleComplex".toList then some (some ['c', '1', '6'])
  else none

def isSpace (c : Char) : Bool := c == ' ' || c == '\t' || c == '\n' || c == '\r'

/-- `s.strip()` -/
def strip (s : Str) : Str := ((s.dropWhile isSpace).reverse.dropWhile isSpace).reverse

/-- result of `_extractField`/`_extractParam`: name, type code (field) or text (param), extras -/
structure Info where
  name : Str
  body : Str
  extra : List (Str × Str)
  deriving DecidableEq, Repr

/-- the description part common to both (io.py 1247-1254, 1291-1298) -/
def descOf : List (Option Str) → Except Err Str
  | [] => .ok []
  | [some t] => .ok t
  | [none] => .error .attr
  | _ :: _ :: _ => .error .runtime

/-- `extrad` (io.py 1270-1278): description, then every attribute but the three named ones -/
def extras (desc : Str) (attrs : List (Str × Str)) : List (Str × Str) :=
  (attrs.filter (fun a => decide (a.1 ≠ "name".toList ∧ a.1 ≠ "arraysize".toList
      ∧ a.1 ≠ "datatype".toList))).foldl (fun d a => dset a.1 a.2 d) [("DESCRIPTION".toList, desc)]

/-- the type code with its size (io.py 1256-1266); `str(None)` later makes it the text `None` -/
def sized (code : Option Str) (size : Option Str) : Except Err Str :=
  match size, code with
  | none, none => .ok "None".toList
  | none, some c => .ok c
  | some _, none => .error .notImpl
  | some sz, some c =>
    if c = ['a'] ∨ c = ['U'] then
      if 'x' ∈ strip sz then .error .notImpl
      else if strip sz = ['*'] then .error .notImpl
      else .ok (c ++ (strip sz).filter (fun ch => decide (ch ≠ '*')))
    else .error .notImpl

/-- `_extractField` (io.py 1245-1280) -/
def extractField (e : Elem) : Except Err Info :=
  match get? "name".toList e.attrs with
  | none => .error .key
  | some nm =>
    match descOf e.descs with
    | .error x => .error x
    | .ok d =>
      match get? "datatype".toList e.attrs with
      | none => .error .key
      | some dt =>
        match dtypemap dt with
        | none => .error .key
        | some code =>
          match sized code (get? "arraysize".toList e.attrs) with
          | .error x => .error x
          | .ok c => .ok ⟨nm, c, extras d e.attrs⟩

/-- `_extractParam` (io.py 1282-1310): the value is checked by `np.array(val, dtype=dtype)` (parameter
`accepts`) but the text itself is returned -/
def extractParam (accepts : Option Str → Str → Bool) (e : Elem) : Except Err Info :=
  match get? "name".toList e.attrs with
  | none => .error .key
  | some nm =>
    match descOf e.descs with
    | .error x => .error x
    | .ok d =>
      match get? "datatype".toList e.attrs with
      | none => .error .key
      | some dt =>
        match dtypemap dt with
        | none => .error .key
        | some code =>
          match get? "value".toList e.attrs with
          | none => .error .key
          | some v => if accepts code v then .ok ⟨nm, v, extras d e.attrs⟩ else .error .value

/-- type codes numpy accepts: those of `dtypemap`, text codes with a number -/
def okCode (c : Str) : Bool :=
  match c with
  | 'a' :: r => r.all Char.isDigit
  | 'U' :: r => r.all Char.isDigit
  | _ => decide (c ∈ [['b'], ['u', '1'], ['i', '2'], ['i', '4'], ['i', '8'], ['f', '4'], ['f', '8'],
      ['c', '8'], ['c', '1', '6']])

def allAscii : List Info → Except Err Unit
  | [] => .ok ()
  | f :: r => match asStr f.name with
    | .error x => .error x
    | .ok _ => allAscii r

/-- `np.dtype([(str(f[0]),str(f[1])) for f in fields])` (io.py 1314) -/
def mkDtype (fs : List Info) : Except Err Unit :=
  match allAscii fs with
  | .error x => .error x
  | .ok _ =>
    if fs.all (fun f => okCode f.body) then
      if (fs.map Info.name).Nodup then .ok () else .error .value
    else .error .type

section
variable {V : Type}

/-- numpy: text (or None) into a column of the given type; the number 0 into it -/
structure Np (V : Type) where
  conv : Str → Option Str → Except Err V
  zero : Str → V
  accepts : Option Str → Str → Bool

/-- one row (io.py 1329-1342): value (`none`: memory never written) and mask (True: present).
White space between the cells is `Cell.other`: the test in line 1337 looks at the row, not the cell. -/
def row (np : Np V) : List Str → List Cell → Except Err (List (Option V × Bool))
  | dts, [] => .ok (dts.map fun _ => (none, true))
  | _, .other :: _ => .error .runtime
  | [], _ :: _ => .error .index
  | dt :: dts, .empty :: r =>
    match row np dts r with
    | .error x => .error x
    | .ok l => .ok ((some (np.zero dt), false) :: l)
  | dt :: dts, .text s :: r =>
    match np.conv dt (some s) with
    | .error x => .error x
    | .ok v => match row np dts r with
      | .error x => .error x
      | .ok l => .ok ((some v, true) :: l)
  | dt :: dts, .elem :: r =>
    match np.conv dt none with
    | .error x => .error x
    | .ok v => match row np dts r with
      | .error x => .error x
      | .ok l => .ok ((some v, true) :: l)

/-- all rows (io.py 1326-1347) -/
def rows (np : Np V) (dts : List Str) : List Node → Except Err (List (List (Option V × Bool)))
  | [] => .ok []
  | .blank :: r => rows np dts r
  | .other :: _ => .error .runtime
  | .tr cs :: r =>
    match row np dts cs with
    | .error x => .error x
    | .ok l => match rows np dts r with
      | .error x => .error x
      | .ok ls => .ok (l :: ls)

/-- `_processTabledata` (io.py 1312-1349): a non-empty `nrows` attribute is a text, which
`np.ndarray` refuses -/
def process (np : Np V) (fs : List Info) (nrows : Option Str) (nodes : List Node) :
    Except Err (List (List (Option V × Bool))) :=
  match mkDtype fs with
  | .error x => .error x
  | .ok _ =>
    if nrows.getD [] ≠ [] then .error .type else rows np (fs.map Info.body) nodes

/-- what is stored for a table (io.py 1176-1181): resource, fields, parameters with extras, array+mask -/
structure Tab (V : Type) where
  res : Option Str
  fields : List Info
  pars : List (Str × (Str × List (Str × Str)))
  data : List (List (Option V × Bool))

/-- local variables and attributes of the constructor (io.py 1060-1081); `none` = unbound or None -/
structure St (V : Type) where
  rc : Nat := 0
  tc : Nat := 0
  vo : List Info := []
  resp : List Info := []
  tabp : List Info := []
  fields : Option (List Info) := none
  params : Option (List Info) := none
  arr : Option (List (List (Option V × Bool))) := none
  nrows : Option Str := none
  inres : Option Str := none
  intab : Option Str := none
  tables : List (Str × Tab V) := []
  tabdescs : List (Str × Str) := []
  resdescs : List (Str × Str) := []
  description : Str := []

/-- truth value of a text or None -/
def truthy : Option Str → Bool
  | none => false
  | some s => !s.isEmpty

/-- `_applyParams` (io.py 1186-1188): both dictionaries at once, later parameters win -/
def applyParams : List Info → List (Str × (Str × List (Str × Str))) →
    Except Err (List (Str × (Str × List (Str × Str))))
  | [], d => .ok d
  | p :: r, d => match asStr p.name with
    | .error x => .error x
    | .ok n => applyParams r (dset n (p.body, p.extra) d)

/-- name of a table (io.py 1110-1115) -/
def tableName (inres : Str) (name : Option Str) (tc : Nat) (used : List Str) : Str :=
  let raw := match name with
    | some n => inres ++ ':' :: n
    | none => 't' :: 'a' :: 'b' :: Nat.toDigits 10 tc
  if raw ∈ used then raw ++ '_' :: Nat.toDigits 10 tc else raw

/-- one turn of the loop (io.py 1083-1184) -/
def step (np : Np V) (s : St V) : Ev → Except Err (St V)
  | .resStart name =>
    if truthy s.inres then .error .notImpl
    else .ok { s with rc := s.rc + 1, resp := [],
                      inres := some (name.getD ('r' :: 'e' :: 's' :: Nat.toDigits 10 (s.rc + 1))) }
  | .resEnd => .ok { s with inres := none }
  | .tabStart ref name nrows =>
    if truthy s.inres then
      if truthy s.intab then .error .runtime
      else if ref then .error .notImpl
      else .ok { s with tc := s.tc + 1, tabp := [], fields := some [], nrows := nrows,
                        intab := some (tableName (s.inres.getD []) name (s.tc + 1) (s.tables.map Prod.fst)) }
    else .error .runtime
  | .tabEnd =>
    match s.intab, s.fields, s.params, s.arr with
    | some t, some fs, some ps, some a =>
      match applyParams ps [] with
      | .error x => .error x
      | .ok d => .ok { s with tables := dset t ⟨s.inres, fs, d, a⟩ s.tables, intab := none,
                              fields := none, params := none, arr := none }
    | _, _, _, _ => .error .unbound
  | .dataStart =>
    if truthy s.intab then .ok { s with params := some (s.vo ++ s.resp ++ s.tabp) } else .error .runtime
  | .tabledata nodes =>
    match s.fields, s.params with
    | some fs, some _ =>
      match process np fs s.nrows nodes with
      | .error x => .error x
      | .ok a => .ok { s with arr := some a }
    | _, _ => .error .unbound
  | .unsupported => .error .notImpl
  | .param e =>
    match extractParam np.accepts e with
    | .error x => .error x
    | .ok p =>
      if truthy s.inres && !truthy s.intab then .ok { s with resp := s.resp ++ [p] }
      else if truthy s.intab then .ok { s with tabp := s.tabp ++ [p] }
      else .ok { s with vo := s.vo ++ [p] }
  | .field e =>
    if truthy s.intab then
      match extractField e with
      | .error x => .error x
      | .ok f => .ok { s with fields := s.fields.map (· ++ [f]) }
    else .error .runtime
  | .desc none => .error .attr
  | .desc (some t) =>
    if truthy s.inres then
      if truthy s.intab then .ok { s with tabdescs := dset (s.intab.getD []) t s.tabdescs }
      else .ok { s with resdescs := dset (s.inres.getD []) t s.resdescs }
    else .ok { s with description := t }
  | .other => .ok s

/-- the constructor: all events in order, the first exception ends it -/
def run (np : Np V) : St V → List Ev → Except Err (St V)
  | s, [] => .ok s
  | s, e :: r => match step np s e with
    | .error x => .error x
    | .ok s' => run np s' r

def read (np : Np V) (evs : List Ev) : Except Err (St V) := run np {} evs

/-- `_tableToName` (io.py 1234-1241), `keys` the order in which the dictionary lists its keys -/
def tableToName (keys : List Str) : Str ⊕ Int → Except Err Str
  | .inl n => if n ∈ keys then .ok n else .error .key
  | .inr i =>
    let j := if i < 0 then i + keys.length else i
    if j < 0 then .error .index else
      match keys[j.toNat]? with
      | some n => .ok n
      | none => .error .index

/-- `getTableArray` together with `getTableMask` (io.py 1226-1232) -/
def getTable (s : St V) (keys : List Str) (t : Str ⊕ Int) : Except Err (Tab V) :=
  match tableToName keys t with
  | .error x => .error x
  | .ok n => match dget n s.tables with
    | some a => .ok a
    | none => .error .key

/-- `getTableFieldNames` (io.py 1208-1211) -/
def getFieldNames (s : St V) (keys : List Str) (t : Str ⊕ Int) : Except Err (List Str) :=
  match getTable s keys t with
  | .error x => .error x
  | .ok a => match allAscii a.fields with
    | .error x => .error x
    | .ok _ => .ok (a.fields.map Info.name)

/-- `getTableParams` (io.py 1200-1202): looks the table up and returns nothing -/
def getTableParams (s : St V) (keys : List Str) (t : Str ⊕ Int) :
    Except Err (Option (List (Str × (Str × List (Str × Str))))) :=
  match getTable s keys t with
  | .error x => .error x
  | .ok _ => .ok none

end
end Verif.VOTable
