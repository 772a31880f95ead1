/-!
# Model of `Source` and its metaclass (astropysics/objcat.py:1487-1640, 2240-2316)

Strings are lists of characters.  Live `Source` objects are kept in a list (the `WeakValueDictionary` contains exactly the
live ones); `collect` is the garbage collection of an object nobody refers to any more.  The ADS lookup
`_findADScode` is an arbitrary partial function `find` (it is the identity when `adsurl` is empty).
-/

namespace Verif.Source

abbrev Str := List Char

/-- Characters removed by Python's `strip()`. -/
def isWs (c : Char) : Bool := c ∈ [' ', '\t', '\n', '\r', '\x0b', '\x0c']

/-- `str.strip()`. -/
def strip (s : Str) : Str := ((s.dropWhile isWs).reverse.dropWhile isWs).reverse

/-- `s.split('/')`. -/
def split : Str → List Str
  | [] => [[]]
  | c :: s =>
    if c = '/' then [] :: split s
    else match split s with
      | [] => [[c]]
      | p :: ps => (c :: p) :: ps

/-- `'/'.join(parts)`. -/
def join : List Str → Str
  | [] => []
  | [p] => p
  | p :: q :: ps => p ++ '/' :: join (q :: ps)

/-- A `Source` object: identity, `_str`, `_adscode`, and whether it is a `DependentSource`. -/
structure Obj where
  id : Nat
  str : Str
  ads : Option Str
  dependent : Bool
deriving DecidableEq, Repr

/-- Live objects, next identity, number of `DependentSource`s made so far (`_instcount`). -/
structure State where
  objs : List Obj
  next : Nat
  deps : Nat
deriving DecidableEq, Repr

/-- `setBibcode` (astropysics/objcat.py:1555-1592): `none` is a failed lookup. -/
def bibcode (find : Str → Option Str) : Option Str → Option (Option Str)
  | none => some none
  | some v => if v = [] then some none else (find v).map some

/-- `Source.__init__` (astropysics/objcat.py:1526-1541): the name and the code, or an exception. -/
def parse (find : Str → Option Str) (src : Str) (bib : Option Str) : Option (Str × Option Str) :=
  if bib = none ∧ '/' ∈ src then
    let sp := split src
    let last := strip (sp.getLastD [])
    if (sp.dropLast).getLastD [] = [] then some (strip (join (sp.dropLast.dropLast)), some last)
    else (bibcode find (some last)).map (fun a => (strip (join sp.dropLast), a))
  else (bibcode find bib).map (fun a => (src, a))

/-- The singleton logic of `_SourceMeta.__call__` (astropysics/objcat.py:1488-1503) for a freshly initialised object: returns
the identity of the object the caller gets. -/
def intern (st : State) (str : Str) (ads : Option Str) (dep : Bool) : State × Nat :=
  match st.objs.find? (fun o => o.str = str) with
  | some o =>
    if ads ≠ none ∧ ads ≠ o.ads then
      ({ st with objs := st.objs.map (fun p => if p.id = o.id then { p with ads := ads } else p), next := st.next + 1 }, o.id)
    else ({ st with next := st.next + 1 }, o.id)
  | none => ({ st with objs := ⟨st.next, str, ads, dep⟩ :: st.objs, next := st.next + 1 }, st.next)

/-- `Source(src, bibcode)`. -/
def create (find : Str → Option Str) (st : State) (src : Str) (bib : Option Str) : State × Option Nat :=
  match parse find src bib with
  | none => (st, none)
  | some (str, ads) => let r := intern st str ads false; (r.1, some r.2)

/-- The `_str` of the `n`th `DependentSource`, 'dependent%i' (astropysics/objcat.py:2281, 2291). -/
def depName (n : Nat) : Str := "dependent".toList ++ (toString n).toList

/-- `DependentSource(…)` (astropysics/objcat.py:2278-2313). -/
def createDependent (st : State) : State × Nat :=
  intern { st with deps := st.deps + 1 } (depName (st.deps + 1)) none true

/-- Garbage collection of an object. -/
def collect (st : State) (i : Nat) : State := { st with objs := st.objs.filter (fun o => o.id ≠ i) }

/-- `__reduce__` (astropysics/objcat.py:1543-1544): the string the pickle re-creates the source from. -/
def reduce (o : Obj) : Str :=
  match o.ads with
  | none => o.str
  | some a => o.str ++ '/' :: '/' :: a

/-- `setBibcode` on a live object (the `adscode` of object `i`). -/
def setBib (find : Str → Option Str) (st : State) (i : Nat) (v : Option Str) : State :=
  match bibcode find v with
  | none => st
  | some a => { st with objs := st.objs.map (fun p => if p.id = i then { p with ads := a } else p) }

/-- Operations. -/
inductive Op
  | create (src : Str) (bib : Option Str)
  | dependent
  | collect (i : Nat)
  | setBib (i : Nat) (v : Option Str)

/-- One operation. -/
def step (find : Str → Option Str) (st : State) : Op → State
  | .create s b => (create find st s b).1
  | .dependent => (createDependent st).1
  | .collect i => collect st i
  | .setBib i v => setBib find st i v

/-- Start: no sources. -/
def init : State := ⟨[], 0, 0⟩

/-- A history. -/
def run (find : Str → Option Str) (st : State) (ops : List Op) : State := ops.foldl (step find) st

end Verif.Source
