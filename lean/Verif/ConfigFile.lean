import Mathlib.Data.List.Basic
import Mathlib.Tactic.Linarith

/-!
# The configuration file format (astropysics/external/configobj.py)

Quoting (1749-1825), the regular expressions for lines and values (1087-1153) with Python's backtracking order, reading (1245-1335, 1533-1698, 1739-1746,
1838-1884) and writing (1971-2113) of a flat file of texts and lists.  Not modelled: sections, triple quotes, inline comments, encodings, interpolation (which
`dict(...)` and `write` do not use).
-/

namespace Verif.ConfigFile

abbrev Str := List Char

inductive Err
  | unsafeQuote | several | typeError | keyError | unmodelled
deriving DecidableEq, Repr

/-- The class `\s`. -/
def isS (c : Char) : Bool := c == ' ' || c == '\t' || c == '\n' || c == '\r' || c == '\x0c' || c == '\x0b'
/-- `wspace_plus`, configobj.py 79. -/
def isPlus (c : Char) : Bool := c == ' ' || c == '\r' || c == '\n' || c == '\x0b' || c == '\t' || c == '\'' || c == '"'

/-! ## Quoting -/

/-- `_get_single_quote` and `quot % value`, configobj.py 1818-1825. -/
def singleQuote (v : Str) : Except Err Str :=
  if '\'' ∈ v ∧ '"' ∈ v then .error .unsafeQuote
  else if '"' ∈ v then .ok ('\'' :: (v ++ ['\'']))
  else .ok ('"' :: (v ++ ['"']))

/-- First and last character are not in `wspace_plus`. -/
def plainEnds (v : Str) : Bool := !((v.head?.map isPlus).getD true) && !((v.getLast?.map isPlus).getD true)

/-- `_quote(value, multiline=False)` with `list_values`, configobj.py 1784-1815. -/
def quote (v : Str) : Except Err Str :=
  if v = [] then .ok ['"', '"']
  else if '\n' ∈ v then .error .unsafeQuote
  else if plainEnds v = true ∧ ',' ∉ v then (if '#' ∈ v then singleQuote v else .ok v)
  else singleQuote v

/-! ## Matching: a continuation receives the text matched and the rest; `none` is failure, and the next possibility is tried -/

/-- `c*?` for a class of characters: as few as possible. -/
def lazyRun {R : Type} (p : Char → Bool) (k : Str → Str → Option R) : Str → Str → Option R
  | acc, [] => k acc []
  | acc, c :: r => match k acc (c :: r) with
    | some x => some x
    | none => if p c then lazyRun p k (acc ++ [c]) r else none

/-- `c*` for a class of characters: as many as possible. -/
def greedyRun {R : Type} (p : Char → Bool) (k : Str → Str → Option R) : Str → Str → Option R
  | acc, [] => k acc []
  | acc, c :: r => if p c then (match greedyRun p k (acc ++ [c]) r with
      | some x => some x
      | none => k acc (c :: r))
    else k acc (c :: r)

/-- The character `.`. -/
def dot (c : Char) : Bool := c != '\n'

/-- The rest begins with the character `q`. -/
def lit {R : Type} (q : Char) (k : Str → Option R) : Str → Option R
  | [] => none
  | c :: r => if c = q then k r else none

/-- `q.*?q` for a quote `q`; the text matched includes the quotes. -/
def quoted {R : Type} (q : Char) (k : Str → Str → Option R) (s : Str) : Option R :=
  lit q (fun r => lazyRun dot (fun acc rest => lit q (fun rest' => k (q :: (acc ++ [q])) rest') rest) [] r) s

/-- `[first][more]*?`. -/
def unquoted {R : Type} (first more : Char → Bool) (k : Str → Str → Option R) : Str → Option R
  | [] => none
  | c :: r => if first c then lazyRun more (fun acc rest => k (c :: acc) rest) [] r else none

/-- `\s*=\s*(.*)$`, configobj.py 1094-1096. -/
def afterKey (key rest : Str) : Option (Str × Str) :=
  greedyRun isS (fun _ s => lit '=' (fun s' => greedyRun isS (fun _ v => some (key, v)) [] s') s) [] rest

def keyFirst (c : Char) : Bool := !(c == '\'' || c == '"' || c == '=')

/-- `_keyword`, configobj.py 1087-1098: key and value. -/
def keyword (line : Str) : Option (Str × Str) :=
  greedyRun isS (fun _ s => (quoted '"' afterKey s).or ((quoted '\'' afterKey s).or (unquoted keyFirst dot afterKey s))) [] line

/-- `\s*,\s*`; the text matched is added to `txt`. -/
def comma {R : Type} (k : Str → Str → Option R) (txt rest : Str) : Option R :=
  greedyRun isS (fun sp s => lit ',' (fun s' => greedyRun isS (fun sp2 s'' => k (txt ++ sp ++ ',' :: sp2) s'') [] s') s) [] rest

def itemFirst (c : Char) : Bool := !(c == '\'' || c == '"' || c == ',' || c == '#')
def itemMore (c : Char) : Bool := !(c == ',' || c == '#')
def lastFirst (c : Char) : Bool := !(c == '\'' || c == '"' || c == ',' || c == '#' || isS c)
def lastMore (c : Char) : Bool := !(c == ',')

/-- One list item with its comma, configobj.py 1121-1127. -/
def item {R : Type} (k : Str → Str → Option R) (s : Str) : Option R :=
  (quoted '"' (comma k) s).or ((quoted '\'' (comma k) s).or (unquoted itemFirst itemMore (comma k) s))

/-- The greedy repetition of items, configobj.py 1120-1129 (an item is never empty, so as many rounds as characters are enough). -/
def items {R : Type} : Nat → (Str → Str → Option R) → Str → Str → Option R
  | 0, k, acc, s => k acc s
  | n + 1, k, acc, s => (item (fun txt s' => items n k (acc ++ txt) s') s).or (k acc s)

/-- The last item or single value, configobj.py 1130-1135; `acc` is what precedes it. -/
def lastItem {R : Type} (k : Option Str → Str → Option R) (acc s : Str) : Option R :=
  (quoted '"' (fun t r => k (some t) r) s).or ((quoted '\'' (fun t r => k (some t) r) s).or
    ((unquoted lastFirst lastMore (fun t r => k (some t) r) s).or
      ((if acc.getLast? = some ',' then none else k (some []) s).or (k none s))))

/-- `\s*(\#.*)?$`, configobj.py 1139-1140. -/
def tailOk : Str → Bool
  | [] => true
  | c :: _ => c == '#'
def tailEnd {R : Type} (x : R) (s : Str) : Option R :=
  greedyRun isS (fun _ r => if tailOk r then some x else none) [] s

/-- `_valueexp`, configobj.py 1117-1141: the list part and the single value; `none` inside for the single comma. -/
def valueExp (s : Str) : Option (Option (Str × Option Str)) :=
  (items s.length (fun acc r => lastItem (fun sg r2 => tailEnd (some (acc, sg)) r2) acc r) [] s).or
    (lit ',' (fun r => tailEnd none r) s)

/-- One match of `_listvalueexp`, configobj.py 1144-1152, at the beginning of the text: the item and what follows the comma. -/
def listMatch (s : Str) : Option (Str × Str) :=
  (quoted '"' (fun t r => comma (fun _ r2 => some (t, r2)) [] r) s).or
    ((quoted '\'' (fun t r => comma (fun _ r2 => some (t, r2)) [] r) s).or
      ((unquoted itemFirst dot (fun t r => comma (fun _ r2 => some (t, r2)) [] r) s).or
        (lazyRun dot (fun t r => comma (fun _ r2 => some (t, r2)) [] r) [] s)))

/-- `_listvalueexp.findall`. -/
def findAll : Nat → Str → List Str
  | 0, _ => []
  | n + 1, s => match listMatch s with
    | some (t, r) => t :: findAll n r
    | none => match s with
      | [] => []
      | _ :: r => findAll n r

/-- `_unquote`, configobj.py 1739-1746; `none` is a SyntaxError. -/
def unquote (v : Str) : Option Str :=
  if v = [] then none
  else if v.head? = v.getLast? ∧ (v.head? = some '"' ∨ v.head? = some '\'') then some (v.tail.dropLast)
  else some v

/-- A value: a text or a list of texts. -/
inductive Val
  | str (s : Str)
  | list (l : List Str)
deriving DecidableEq, Repr

/-- All unquoted, or a SyntaxError. -/
def unquoteAll : List Str → Option (List Str)
  | [] => some []
  | v :: r => match unquote v with
    | none => none
    | some w => match unquoteAll r with
      | none => none
      | some t => some (w :: t)

/-- The single value, configobj.py 1866-1874: outer `none` is a SyntaxError. -/
def singleOf (lst : Str) : Option Str → Option (Option Str)
  | none => some none
  | some t => if lst ≠ [] ∧ t = [] then some none else (unquote (if t = [] then ['"', '"'] else t)).map some

/-- The list, configobj.py 1875-1884. -/
def listOf (lst : Str) (sg : Option Str) : Option Val :=
  if lst = [] then sg.map Val.str
  else (unquoteAll (findAll (lst.length + 1) lst)).map (fun l => Val.list (l ++ sg.toList))

/-- `_handle_value`, configobj.py 1838-1884 (without the comment); `none` is a SyntaxError. -/
def handleValue (s : Str) : Option Val :=
  match valueExp s with
  | none => none
  | some none => some (.list [])
  | some (some (lst, sg)) =>
    if lst = [] ∧ sg = none then none
    else match singleOf lst sg with
      | none => none
      | some sg' => listOf lst sg'

/-! ## Lines -/

inductive Line
  | comment
  | entry (k : Str) (v : Val)
  | bad
  | other
deriving DecidableEq, Repr

/-- `line.strip()` from the left. -/
def lstrip (l : Str) : Str := l.dropWhile isS

/-- The beginning of a triple quote, configobj.py 1623. -/
def triple (v : Str) : Bool := v.take 3 == ['"', '"', '"'] || v.take 3 == ['\'', '\'', '\'']

/-- What a line is, configobj.py 1550-1687.  A line whose first character is a bracket could be a section marker; those and triple quotes are not modelled. -/
def classify (l : Str) : Line :=
  match lstrip l with
  | [] => .comment
  | '#' :: _ => .comment
  | '[' :: _ => .other
  | _ => match keyword l with
    | none => .bad
    | some (k, v) =>
      if triple v then .other
      else match handleValue v with
        | none => .bad
        | some val => match unquote k with
          | none => .bad
          | some k' => .entry k' val

structure Entry where
  comments : List Str
  key : Str
  val : Val

structure Doc where
  initial : List Str
  entries : List Entry
  final : List Str

/-- The state of the loop in `_parse`. -/
structure PS where
  cl : List Str
  started : Bool
  reset : Bool
  doc : Doc
  errs : Nat
  odd : Bool

def Doc.keys (d : Doc) : List Str := d.entries.map Entry.key

/-- `comment_list` at the top of the loop, configobj.py 1546-1547. -/
def PS.cur (s : PS) : List Str := if s.reset then [] else s.cl

/-- The lines before the first entry, configobj.py 1556-1560. -/
def PS.begin (s : PS) : PS :=
  if s.started then { s with cl := s.cur, reset := true }
  else { s with cl := [], started := true, reset := true, doc := { s.doc with initial := s.cur } }

/-- One line, configobj.py 1546-1687. -/
def stepLine (s : PS) (l : Str) : PS :=
  match classify l with
  | .comment => { s with cl := s.cur ++ [l], reset := false }
  | .bad => { s.begin with errs := s.errs + 1 }
  | .other => { s.begin with odd := true }
  | .entry k v =>
    if k ∈ s.doc.keys then { s.begin with errs := s.errs + 1 }
    else { s.begin with doc := { s.begin.doc with entries := s.begin.doc.entries ++ [⟨s.begin.cl, k, v⟩] } }

def start : PS := ⟨[], false, false, ⟨[], [], []⟩, 0, false⟩

/-- The end of the file, configobj.py 1693-1697. -/
def finish (s : PS) : PS :=
  if s.doc.entries = [] ∧ s.doc.initial = [] then { s with doc := { s.doc with initial := s.cl } }
  else if s.reset then s
  else { s with doc := { s.doc with final := s.cl } }

def parseLines (ls : List Str) : PS := finish (ls.foldl stepLine start)

/-- `splitlines` and the removal of the line ends, configobj.py 1303-1312. -/
def splitLines : Str → Str → List Str
  | cur, [] => if cur = [] then [] else [cur]
  | cur, '\r' :: '\n' :: r => cur :: splitLines [] r
  | cur, c :: r => if c = '\n' ∨ c = '\r' then cur :: splitLines [] r else splitLines (cur ++ [c]) r

/-- What `get_config(name)` gives, config.py 769-772 with configobj.py 1316-1331: an object, None (exactly one error: its message does not contain 'Parsing
failed', so it is swallowed), or an error. -/
inductive Cfg
  | obj (d : Doc)
  | none
  | raised (e : Err)

/-- `ConfigObj(fn)` for the text of the file (`none`: no such file). -/
def load : Option Str → Cfg
  | .none => .obj ⟨[], [], []⟩
  | some t =>
    let s := parseLines (splitLines [] t)
    if s.odd then .raised .unmodelled
    else if s.errs = 0 then .obj s.doc
    else if s.errs = 1 then .none
    else .raised .several

/-! ## Writing -/

/-- All quoted. -/
def quoteAll : List Str → Except Err (List Str)
  | [] => .ok []
  | v :: r => match quote v with
    | .error e => .error e
    | .ok q => match quoteAll r with
      | .error e => .error e
      | .ok t => .ok (q :: t)

/-- `sep.join(l)`. -/
def join (sep : Str) : List Str → Str
  | [] => []
  | [l] => l
  | l :: r => l ++ (sep ++ join sep r)

/-- `_quote(value)`, configobj.py 1772-1777, for lists (texts that need triple quotes are not modelled). -/
def quoteVal : Val → Except Err Str
  | .str _ => .error .unmodelled
  | .list [] => .ok [',']
  | .list [v] => match quote v with
    | .error e => .error e
    | .ok q => .ok (q ++ [','])
  | .list l => match quoteAll l with
    | .error e => .error e
    | .ok qs => .ok (join [',', ' '] qs)

/-- `_write_line`, configobj.py 1971-1982. -/
def entryLine (e : Entry) : Except Err Str :=
  match quoteVal e.val with
  | .error x => .error x
  | .ok v => match quote e.key with
    | .error x => .error x
    | .ok k => .ok (k ++ (' ' :: '=' :: ' ' :: v))

/-- The lines of the entries, configobj.py 2041-2066. -/
def entryLines : List Entry → Except Err (List Str)
  | [] => .ok []
  | e :: r => match entryLine e with
    | .error x => .error x
    | .ok l => match entryLines r with
      | .error x => .error x
      | .ok ls => .ok (e.comments.map lstrip ++ l :: ls)

/-- The text of the file, configobj.py 2096-2106. -/
def textOf (out : List Str) : Str :=
  let o := join ['\n'] out
  if o.getLast? = some '\n' then o else o ++ ['\n']

/-- `write()`, configobj.py 2006-2113: the text to be written. -/
def write (d : Doc) : Except Err Str :=
  match entryLines d.entries with
  | .error x => .error x
  | .ok ls => .ok (textOf (d.initial ++ ls ++ d.final))

end Verif.ConfigFile
