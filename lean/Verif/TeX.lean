import Mathlib.Data.List.Basic
import Mathlib.Tactic.Linarith

/-!
# The TeX parser (astropysics/publication.py 61-76, 113-131, 300-930)

`text_to_nodes` with the three regular expressions it uses spelled out as functions (leftmost match,
greedy and lazy repetition as in Python's `re`), the node classes it builds, and `TeXNode.__call__`.
Texts are lists of characters (byte strings: `\w` is ASCII).  `flatteninputs`, the registry of
environment classes (which does not influence the text) and warnings are not modelled.
-/

namespace Verif.TeX

abbrev Str := List Char

/-- `\s` and `str.isspace` on byte strings. -/
def isSpace (c : Char) : Bool := c ∈ [' ', '\t', '\n', '\r', '\x0b', '\x0c']

/-- `\w` on byte strings. -/
def isWord (c : Char) : Bool :=
  (decide ('a' ≤ c) && decide (c ≤ 'z')) || (decide ('A' ≤ c) && decide (c ≤ 'Z')) ||
  (decide ('0' ≤ c) && decide (c ≤ '9')) || c == '_'

inductive Err where
  | valueError | indexError | fuel
deriving DecidableEq, Repr

/-! ### Nodes -/

/-- `RequiredArgument` (`{...}`) and `OptionalArgument` (`[...]`), publication.py 678-705. -/
inductive Arg where
  | req (t : Str)
  | opt (t : Str)
deriving DecidableEq, Repr

/-- The node classes: `TeXt`, `Newline` (300-338), `Environment` (341), `MathMode` (512), `Command`
(548), `TrailingCharCommand` (650), `EnclosedDeclaration` (707; its command is a `Command` or
`TrailingCharCommand`). -/
inductive Node where
  | text (t : Str)
  | newline
  | env (name : Str) (children : List Node)
  | math (display : Bool) (children : List Node)
  | cmd (name : Str) (args : List Arg)
  | trailing (name : Str) (c : Char)
  | enc (pad : Str) (cmd : Node) (children : List Node)

/-- publication.py 639-643. -/
def printArg : Arg → Str
  | .req t => '{' :: t ++ ['}']
  | .opt t => '[' :: t ++ [']']

mutual
/-- `TeXNode.__call__` (113-131) with each class' `getSelfText` (329, 378-381, 544-546, 636-645,
675, 765). -/
def print : Node → Str
  | .text t => t
  | .newline => ['\n']
  | .env n cs => "\\begin{".toList ++ n ++ ['}'] ++ printL cs ++ ("\\end{".toList ++ n ++ ['}'])
  | .math d cs => (if d then ['$', '$'] else ['$']) ++ printL cs ++ (if d then ['$', '$'] else ['$'])
  | .cmd n args => '\\' :: n ++ (args.map printArg).flatten
  | .trailing n c => '\\' :: n ++ [c]
  | .enc p c cs => '{' :: p ++ print c ++ printL cs ++ ['}']
/-- `''.join([c() for c in children])`. -/
def printL : List Node → Str
  | [] => []
  | n :: ns => print n ++ printL ns
end

/-! ### Regular expressions -/

/-- The inside of `{.*?}` / `\[.*?\]` after the opening character: everything up to the first closing
character, not across a line end. -/
def upTo (close : Char) : Str → Option (Str × Str)
  | [] => none
  | c :: l =>
    if c = close then some ([], l)
    else if c = '\n' then none
    else (upTo close l).map (fun p => (c :: p.1, p.2))

/-- One alternative of `(?:{.*?})|(?:\[.*?\])`: matched text and rest. -/
def group : Str → Option (Str × Str)
  | [] => none
  | c :: l =>
    if c = '{' then (upTo '}' l).map (fun p => ('{' :: p.1 ++ ['}'], p.2))
    else if c = '[' then (upTo ']' l).map (fun p => ('[' :: p.1 ++ [']'], p.2))
    else none

/-- `(?:...)*` over groups: matched text and rest (fuel: the length of the text). -/
def groups : Nat → Str → Str × Str
  | 0, l => ([], l)
  | f + 1, l =>
    match group l with
    | none => ([], l)
    | some (g, r) => let p := groups f r; (g ++ p.1, p.2)

/-- The second part of `_commandre` (publication.py 68): one or more groups, or an empty match before
a non-word character. -/
def argsAt (l : Str) : Option (Str × Str) :=
  match group l with
  | some _ => some (groups l.length l)
  | none =>
    match l with
    | c :: _ => if isWord c then none else some ([], l)
    | [] => none

/-- The end of the command name: `[*]?` (taken if possible) followed by the second part. -/
def nameEnd (name l : Str) : Option (Str × Str × Str) :=
  match l with
  | '*' :: l' =>
    match argsAt l' with
    | some p => some (name ++ ['*'], p)
    | none => (argsAt l).map (fun p => (name, p))
  | _ => (argsAt l).map (fun p => (name, p))

/-- `.*?` of the name: try to end, else take one more character. -/
def nameLoop (name : Str) : Str → Option (Str × Str × Str)
  | [] => nameEnd name []
  | c :: l =>
    match nameEnd name (c :: l) with
    | some r => some r
    | none => if c = '\n' then none else nameLoop (name ++ [c]) l

/-- `_commandre` (publication.py 68-69) at the beginning of a text: name, arguments, rest. -/
def command : Str → Option (Str × Str × Str)
  | '\\' :: c :: l => if isWord c then nameLoop [c] l else none
  | _ => none

/-- `_commandre.split(txt)`, arranged as the list of (text before, name, arguments) and the last
text.  Fuel: the length of the text. -/
def commandSplit : Nat → Str → List (Str × Str × Str) × Str
  | 0, l => ([], l)
  | f + 1, l =>
    match command l with
    | some (n, a, r) =>
      let p := commandSplit f r
      (([], n, a) :: p.1, p.2)
    | none =>
      match l with
      | [] => ([], [])
      | c :: l' =>
        match commandSplit f l' with
        | ([], t) => ([], c :: t)
        | ((t, x) :: ps, e) => ((c :: t, x) :: ps, e)

/-- The first occurrence of a string: text before and after it. -/
def findSub (pat : Str) : Str → Option (Str × Str)
  | [] => if pat = [] then some ([], []) else none
  | c :: l =>
    if pat.isPrefixOf (c :: l) then some ([], (c :: l).drop pat.length)
    else (findSub pat l).map (fun p => (c :: p.1, p.2))

/-- `\\end{\2}` for a name. -/
def endTag (n : Str) : Str := "\\end{".toList ++ n ++ ['}']

/-- `(.*?)}(.*?)\\end{\2}` of `_envre` (publication.py 64) after `\\begin{`: the name grows over the
closing braces until the rest matches. -/
def envName (name : Str) : Str → Option (Str × Str × Str)
  | [] => none
  | c :: l =>
    if c = '}' then
      match findSub (endTag name) l with
      | some p => some (name, p)
      | none => envName (name ++ [c]) l
    else envName (name ++ [c]) l

/-- Everything up to the first `$` (over lines), and the rest after it. -/
def upToDollar : Str → Option (Str × Str)
  | [] => none
  | c :: l => if c = '$' then some ([], l) else (upToDollar l).map (fun p => (c :: p.1, p.2))

/-- The closing `\${1,2}`: the characters taken and the rest, after one `$`. -/
def close2 : Str → Str × Str
  | '$' :: l => (['$', '$'], l)
  | l => (['$'], l)

/-- A match of `_envre`: an environment (group 1) or mathematics (group 4), as its whole text. -/
inductive Match where
  | env (s : Str)
  | math (s : Str)
deriving DecidableEq, Repr

def Match.str : Match → Str
  | .env s => s
  | .math s => s

/-- `\${1,2}.*?\${1,2}` at the beginning of a text. -/
def mathAt : Str → Option (Str × Str)
  | '$' :: l =>
    -- two opening dollars if that leads to a match, else one
    let one := (upToDollar l).map (fun p => let q := close2 p.2; ('$' :: p.1 ++ q.1, q.2))
    match l with
    | '$' :: l' =>
      match upToDollar l' with
      | some p => let q := close2 p.2; some ('$' :: '$' :: p.1 ++ q.1, q.2)
      | none => one
    | _ => one
  | _ => none

/-- `_envre` (publication.py 64) at the beginning of a text. -/
def envAt (l : Str) : Option (Match × Str) :=
  if ("\\begin{".toList).isPrefixOf l then
    match envName [] (l.drop 7) with
    | some (n, c, r) => some (.env ("\\begin{".toList ++ n ++ ['}'] ++ c ++ endTag n), r)
    | none => none
  else (mathAt l).map (fun p => (.math p.1, p.2))

/-- `_envre.split(txt)` as the list of (text before, match) and the last text. -/
def envSplit : Nat → Str → List (Str × Match) × Str
  | 0, l => ([], l)
  | f + 1, l =>
    match envAt l with
    | some (m, r) =>
      let p := envSplit f r
      (([], m) :: p.1, p.2)
    | none =>
      match l with
      | [] => ([], [])
      | c :: l' =>
        match envSplit f l' with
        | ([], t) => ([], c :: t)
        | ((t, x) :: ps, e) => ((c :: t, x) :: ps, e)

/-- The lookahead `(?=\s*?(?:$|{|\[))` of `_cmdargsepre` (publication.py 72). -/
def sepAfter (l : Str) : Bool :=
  match l.dropWhile isSpace with
  | [] => true
  | o :: _ => o == '{' || o == '['

/-- `_cmdargsepre.split(args)` (publication.py 72): split at `}` or `]` followed by white space and
`{`, `[` or the end. -/
def argSplit : Str → List Str
  | [] => [[]]
  | c :: l =>
    if (c == '}' || c == ']') && sepAfter l then [] :: argSplit l
    else
      match argSplit l with
      | [] => [[c]]
      | p :: ps => (c :: p) :: ps

/-! ### Building nodes -/

/-- publication.py 586-598: the arguments of a `Command`. -/
def mkArg : Str → Except Err Arg
  | [] => .error .indexError
  | c :: t => if c = '{' then .ok (.req t) else if c = '[' then .ok (.opt t) else .error .valueError

def mkArgL : List Str → Except Err (List Arg)
  | [] => .ok []
  | a :: l =>
    match mkArg a with
    | .error e => .error e
    | .ok x =>
      match mkArgL l with
      | .error e => .error e
      | .ok xs => .ok (x :: xs)

def mkArgs (args : Str) : Except Err (List Arg) :=
  if args = [] then .ok []
  else
    let spl := argSplit args
    if spl.getLast? ≠ some [] then .error .valueError
    else mkArgL spl.dropLast

/-- The list under construction (`txtnodel`): strings and nodes; a command keeps its original
arguments (`origtext`, publication.py 898). -/
inductive Item where
  | str (s : Str)
  | cmd (name : Str) (args : List Arg) (orig : Str)
  | node (n : Node)

/-- The last occurrence: text before it (`rindex`/`rfind`). -/
def rfindSub (pat : Str) : Str → Option Str
  | [] => if pat = [] then some [] else none
  | c :: l =>
    match rfindSub pat l with
    | some b => some (c :: b)
    | none => if pat.isPrefixOf (c :: l) then some [] else none

/-- `environment_factory` (publication.py 440-455): name and content of an environment text. -/
def envParts (s : Str) : Except Err (Str × Str) :=
  match findSub ['{'] s with
  | none => .error .valueError
  | some (b, _) =>
    match findSub ['}'] s with
    | none => .error .valueError
    | some (b', _) =>
      match rfindSub "\\end".toList s with
      | none => .error .valueError
      | some e => .ok ((s.take b'.length).drop (b.length + 1), e.drop (b'.length + 1))

/-- `MathMode.__init__` (publication.py 521-542): display mode and content. -/
def mathParts (s : Str) : Except Err (Bool × Str) :=
  match s with
  | '$' :: '$' :: l => .ok (true, l.take (l.length - 2))
  | '$' :: l => .ok (false, l.take (l.length - 1))
  | _ => .error .valueError

/-- publication.py 892-902: the commands of one chunk of text. -/
def chunkItems : List (Str × Str × Str) → Str → Except Err (List Item)
  | [], e => .ok [.str e]
  | (t, n, a) :: ps, e =>
    match mkArgs a with
    | .error x => .error x
    | .ok args =>
      match chunkItems ps e with
      | .error x => .error x
      | .ok l => .ok (.str t :: .cmd n args a :: l)

/-- publication.py 904-908: the node for an environment or mathematics; `parse` is
`text_to_nodes` on the content. -/
def matchNode (parse : Str → Except Err (List Node)) : Match → Except Err Node
  | .env s =>
    match envParts s with
    | .error e => .error e
    | .ok (n, c) =>
      match parse c with
      | .error e => .error e
      | .ok cs => .ok (.env n cs)
  | .math s =>
    match mathParts s with
    | .error e => .error e
    | .ok (d, c) =>
      match parse c with
      | .error e => .error e
      | .ok cs => .ok (.math d cs)

/-- publication.py 885-908. -/
def firstItems (parse : Str → Except Err (List Node)) :
    List (Str × Match) → Str → Except Err (List Item)
  | [], e =>
    let p := commandSplit e.length e
    chunkItems p.1 p.2
  | (t, m) :: ps, e =>
    let p := commandSplit t.length t
    match chunkItems p.1 p.2 with
    | .error x => .error x
    | .ok l =>
      match matchNode parse m with
      | .error x => .error x
      | .ok n =>
        match firstItems parse ps e with
        | .error x => .error x
        | .ok r => .ok (l ++ .node n :: r)

/-- The body of the loop publication.py 911-942 at one position: the item there and the items after
it, which are already treated.  (Only these are read or changed.) -/
def leftRight (parse : Str → Except Err (List Node)) (it : Item) (tail : List Item) :
    Except Err (List Item) :=
  match it with
  | .cmd n args orig =>
    if n = "left".toList ∧ args ≠ [] then
      match orig with
      | [] => .error .indexError
      | c :: t =>
        match parse t with
        | .error e => .error e
        | .ok ns => .ok (.node (.trailing n c) :: ns.map .node ++ tail)
    else if n = "left".toList ∨ n = "right".toList then
      match tail with
      | .str [] :: _ => .error .indexError
      | .str (c :: t) :: tl =>
        if isSpace c then .ok (it :: tail)
        else .ok (.node (.trailing n c) :: (if t = [] then tl else .str t :: tl))
      | _ => .ok (it :: tail)
    else .ok (it :: tail)
  | _ => .ok (it :: tail)

/-- publication.py 911-942: `for i in reversed(range(len(txtnodel)))`. -/
def fixLeftRight (parse : Str → Except Err (List Node)) : List Item → Except Err (List Item)
  | [] => .ok []
  | it :: l =>
    match fixLeftRight parse l with
    | .error e => .error e
    | .ok tail => leftRight parse it tail

/-- Is the item a `Command` (or `TrailingCharCommand`, a subclass)? -/
def asCommand : Item → Option Node
  | .cmd n args _ => some (.cmd n args)
  | .node (.cmd n args) => some (.cmd n args)
  | .node (.trailing n c) => some (.trailing n c)
  | _ => none

/-- `s.count('{') - s.count('}')`. -/
def braces (s : Str) : Int := (s.count '{' : Int) - (s.count '}' : Int)

/-- publication.py 969-974: the position at which the open braces are closed. -/
def closing (n : Int) : Str → Option (Str × Str)
  | [] => none
  | c :: l =>
    let n' := if c = '{' then n + 1 else if c = '}' then n - 1 else n
    if n' = 0 then some ([], l) else (closing n' l).map (fun p => (c :: p.1, p.2))

/-- How the search for the closing brace ended. -/
inductive Found where
  /-- content, offset of the text that contains the brace, what is left of that text -/
  | closed (content : List Item) (j : Nat) (rest : Str)
  | unbalanced
  | ranOut (content : List Item)

/-- publication.py 955-986: the loop over the items after the command.  Also returns the offsets put
on the list of items to delete. -/
def encSearch (nb : Int) (content : List Item) (del : List Nat) (j : Nat) :
    List Item → Found × List Nat
  | [] => (.ranOut content, del)
  | .str s :: l =>
    if nb + braces s > 1 then encSearch (nb + braces s) (content ++ [.str s]) (del ++ [j]) (j + 1) l
    else
      match closing nb s with
      | some (k, rest) => (.closed (content ++ [.str k]) j rest, del)
      | none => (.unbalanced, del)
  | it :: l => encSearch nb (content ++ [it]) del (j + 1) l

/-- `s.rstrip().endswith('{')`. -/
def opensBrace (s : Str) : Bool := (s.reverse.dropWhile isSpace).head? == some '{'

/-- `len(s)>0 and s[0].isspace()`. -/
def startsSpace (s : Str) : Bool :=
  match s with
  | [] => false
  | c :: _ => isSpace c

/-- A string or command of the list as nodes: strings are parsed (758-763). -/
def encChildren (parse : Str → Except Err (List Node)) : List Item → Except Err (List Node)
  | [] => .ok []
  | .str s :: l =>
    match parse s with
    | .error e => .error e
    | .ok ns =>
      match encChildren parse l with
      | .error e => .error e
      | .ok r => .ok (ns ++ r)
  | .cmd n args _ :: l =>
    match encChildren parse l with
    | .error e => .error e
    | .ok r => .ok (.cmd n args :: r)
  | .node n :: l =>
    match encChildren parse l with
    | .error e => .error e
    | .ok r => .ok (n :: r)

/-- publication.py 947-995: one round of the loop over `i`. -/
def encStep (parse : Str → Except Err (List Node)) (i : Nat) (items : List Item) (todel : List Nat) :
    Except Err (List Item × List Nat) :=
  match items[i - 1]?, items[i]?.bind asCommand, items[i + 1]? with
  | some (.str pre), some c, some (.str post) =>
    if opensBrace pre && startsSpace post then
      let f := encSearch 1 [] [] (i + 1) (items.drop (i + 1))
      let build (content : List Item) (items : List Item) : Except Err (List Item × List Nat) :=
        match encChildren parse content with
        | .error e => .error e
        | .ok cs =>
          let before := (rfindSub ['{'] pre).getD []
          let pad := pre.drop (before.length + 1)
          .ok ((items.set (i - 1) (.str before)).set i (.node (.enc pad c cs)), todel ++ f.2)
      match f.1 with
      | .closed content j rest => build content (items.set j (.str rest))
      | .ranOut content => build content items
      | .unbalanced => .ok (items, todel ++ f.2)
    else .ok (items, todel)
  | _, _, _ => .ok (items, todel)

/-- publication.py 946: `for i in range(1,len(txtnodel)-1)`; `k` rounds from `i`. -/
def encLoop (parse : Str → Except Err (List Node)) : Nat → Nat → List Item → List Nat →
    Except Err (List Item × List Nat)
  | 0, _, items, todel => .ok (items, todel)
  | k + 1, i, items, todel =>
    match encStep parse i items todel with
    | .error e => .error e
    | .ok (items', todel') => encLoop parse k (i + 1) items' todel'

/-- publication.py 997-998: `for i in reversed(todel): del txtnodel[i]`. -/
def deleteAll (items : List Item) : List Nat → Except Err (List Item)
  | [] => .ok items
  | i :: l =>
    match deleteAll items l with
    | .error e => .error e
    | .ok r => if i < r.length then .ok (r.eraseIdx i) else .error .indexError

/-- `t.split('\n')`. -/
def splitLines : Str → List Str
  | [] => [[]]
  | c :: l =>
    if c = '\n' then [] :: splitLines l
    else
      match splitLines l with
      | [] => [[c]]
      | p :: ps => (c :: p) :: ps

/-- publication.py 1009-1012: the nodes of a string. -/
def lineNodes : List Str → List Node
  | [] => []
  | [t] => [.text t]
  | t :: ts => .text t :: .newline :: lineNodes ts

/-- publication.py 1006-1018. -/
def finish : List Item → List Node
  | [] => []
  | .str s :: l => lineNodes (splitLines s) ++ finish l
  | .cmd n args _ :: l => .cmd n args :: finish l
  | .node n :: l => n :: finish l

/-- `text_to_nodes` (publication.py 866-1021).  Fuel bounds the nesting; `toNodes` below provides
enough. -/
def parse : Nat → Str → Except Err (List Node)
  | 0, _ => .error .fuel
  | f + 1, txt =>
    let p := envSplit txt.length txt
    match firstItems (parse f) p.1 p.2 with
    | .error e => .error e
    | .ok items =>
      match fixLeftRight (parse f) items with
      | .error e => .error e
      | .ok items =>
        match encLoop (parse f) (items.length - 2) 1 items [] with
        | .error e => .error e
        | .ok (items, todel) =>
          match deleteAll items todel with
          | .error e => .error e
          | .ok items => .ok (finish items)

def toNodes (txt : Str) : Except Err (List Node) := parse (txt.length + 1) txt

end Verif.TeX
