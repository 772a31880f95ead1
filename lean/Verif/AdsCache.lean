import Verif.Source

/-!
# Bibliographic records of sources (astropysics/objcat.py 1552-1850)

`Source.setBibcode`, `_findADScode`, `_getADSXMLRec`, `clearADSCache`, `useADSCache` and the properties that read a record.  The
server is arbitrary: its answer may depend on how many requests were made before.  Texts are lists of (ascii) characters.  Not modelled: `getBibEntry`,
`openADSAbstract`, the time a request takes.
-/

namespace Verif.AdsCache

abbrev Text := List Char

/-- The exceptions: SourceDataError, TypeError, KeyError, IndexError, AttributeError, and those of urllib2. -/
inductive Err
  | data | type | key | index | attribute | url
deriving DecidableEq

/-! ## Texts -/

/-- `pat in s`. -/
def contains (pat : Text) : Text → Bool
  | [] => pat.isEmpty
  | c :: s => pat.isPrefixOf (c :: s) || contains pat s

/-- `s.replace(pat, '')`, with as many rounds as `s` has characters. -/
def removeN (pat : Text) : Nat → Text → Text
  | 0, s => s
  | _ + 1, [] => []
  | n + 1, c :: s => if pat.isPrefixOf (c :: s) then removeN pat n ((c :: s).drop pat.length) else c :: removeN pat n s

/-- `s.replace(pat, '')` for a `pat` that is not empty. -/
def remove (pat s : Text) : Text := removeN pat s.length s

/-- `s.lower()`. -/
def lower (s : Text) : Text := s.map Char.toLower

/-! ## The code of a location -/

/-- The URL that is asked for a location, objcat.py 1607-1619. -/
def urlOf (ads loc : Text) : Text :=
  let lloc := lower loc
  (if contains "arxiv".toList lloc then "http://".toList ++ ads ++ "/abs/arXiv:".toList ++ Source.strip (remove "arxiv".toList (remove "arxiv:".toList lloc))
  else if contains "astro-ph".toList lloc then "http://".toList ++ ads ++ "/abs/arXiv:".toList ++ Source.strip (remove "astro-ph".toList (remove "astro-ph:".toList lloc))
  else if contains "doi".toList lloc then "http://".toList ++ ads ++ "/doi/".toList ++ remove "doi".toList (remove "doi:".toList lloc)
  else if contains "http".toList lloc then loc
  else "http://".toList ++ ads ++ "/abs/".toList ++ loc) ++ "?data_type=PLAINTEXT".toList

/-- What a request for a page gives: its lines, HTTPError, a URLError for a timeout or another one. -/
inductive Page
  | lines (l : List Text)
  | http | timeout | other

/-- What marks the code. -/
def mark : Text := "Bibliographic Code:".toList

/-- The first line with the mark, objcat.py 1623-1631. -/
def codeIn : List Text → Option Text
  | [] => none
  | l :: ls => if contains mark l then some (Source.strip (remove mark l)) else codeIn ls

/-- `_findADScode`, objcat.py 1601-1639. -/
def findCode (ads : Text) (web : Text → Page) (loc : Text) : Except Err Text :=
  if ads = [] then .ok loc
  else match web (urlOf ads loc) with
    | .http => .error .data
    | .timeout => .error .data
    | .other => .error .url
    | .lines l => match codeIn l with
      | none => .error .data
      | some c => .ok c

/-- What can be passed as a bibcode. -/
inductive Arg
  | none
  | str (t : Text)
  | other

/-- `setBibcode`, objcat.py 1589-1598: the code of the source afterwards, and the exception. -/
def setBibcode (ads : Text) (web : Text → Page) (old : Option Text) : Arg → Option Text × Option Err
  | .none => (Option.none, Option.none)
  | .other => (old, some .type)
  | .str v =>
    if v = [] then (Option.none, Option.none)
    else match findCode ads web v with
      | .error e => (old, some e)
      | .ok c => (some c, Option.none)

/-! ## Records -/

/-- A record: the text of the first child of every element with a tag, `none` for an element without one. -/
structure Rec where
  elements : String → List (Option Text)

/-- `title`, `abstract` and `date`, objcat.py 1788-1820: the text of the only element. -/
def only (r : Rec) (tag : String) : Except Err Text :=
  match r.elements tag with
  | [some t] => .ok t
  | [none] => .error .attribute
  | _ => .error .data

/-- `authors`, objcat.py 1780-1786. -/
def texts : List (Option Text) → Except Err (List Text)
  | [] => .ok []
  | none :: _ => .error .attribute
  | some t :: l => match texts l with
    | .error e => .error e
    | .ok ts => .ok (t :: ts)

/-! ## The cache -/

/-- `Source._adsxmlcache`, and the number of requests so far. -/
structure World where
  cache : Option (List (Text × Rec))
  time : Nat

/-- When the module is loaded, objcat.py 1642. -/
def start : World := ⟨some [], 0⟩

/-- `d[k]`. -/
def look : List (Text × Rec) → Text → Option Rec
  | [], _ => none
  | (k', r) :: d, k => if k' = k then some r else look d k

/-- `clearADSCache`, objcat.py 1644-1653; without a cache there is nothing that has `clear`, or items to delete. -/
def clear (w : World) : Option Text → World × Option Err
  | none => match w.cache with
    | none => (w, some .attribute)
    | some _ => ({ w with cache := some [] }, none)
  | some c => match w.cache with
    | none => (w, some .type)
    | some m => if (look m c).isSome then ({ w with cache := some (m.filter fun p => decide (p.1 ≠ c)) }, none) else (w, some .key)

/-- `useADSCache`, objcat.py 1655-1667. -/
def use (w : World) : Bool → World
  | true => match w.cache with
    | none => { w with cache := some [] }
    | some _ => w
  | false => { w with cache := none }

/-- The end of `_getADSXMLRec`, objcat.py 1684-1693. -/
def store (w : World) (c : Text) : Except Err (List Rec) → World × Except Err Rec
  | .error e => (w, .error e)
  | .ok [] => (w, .error .index)
  | .ok [r] => match w.cache with
    | none => (w, .ok r)
    | some m => ({ w with cache := some ((c, r) :: m.filter fun p => decide (p.1 ≠ c)) }, .ok r)
  | .ok (_ :: _ :: _) => (w, .error .data)

/-- What is in the cache. -/
def cached (w : World) (c : Text) : Option Rec :=
  match w.cache with
  | none => none
  | some m => look m c

/-- `_getADSXMLRec`, objcat.py 1669-1695: `ads` is `Source.adsurl`, `net n` answers the request number `n`. -/
def getRec (ads : Text) (net : Nat → Text → Except Err (List Rec)) (w : World) : Option Text → World × Except Err Rec
  | none => (w, .error .data)
  | some c =>
    if ads = [] then (w, .error .data)
    else match cached w c with
      | some r => (w, .ok r)
      | none => store { w with time := w.time + 1 } c (net w.time c)

/-- What happens to the cache. -/
inductive Op
  | lookup (c : Option Text)
  | clear (c : Option Text)
  | use (b : Bool)

/-- One operation. -/
def step (ads : Text) (net : Nat → Text → Except Err (List Rec)) (w : World) : Op → World
  | .lookup c => (getRec ads net w c).1
  | .clear c => (clear w c).1
  | .use b => use w b

/-- A history. -/
def run (ads : Text) (net : Nat → Text → Except Err (List Rec)) (w : World) (ops : List Op) : World := ops.foldl (step ads net) w

end Verif.AdsCache
