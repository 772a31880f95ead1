import Verif.TeX

/-!
# Whole TeX files (astropysics/publication.py 186-295, 768-863)

`TeXFile._parse`, `_addin_comments`, `Comment`, `Preamble.__init__` and the printing of the file
(`TeXFile.__call__`, `save`), on top of `text_to_nodes` of `Verif.TeX`.  `flatteninputs` is `False`
(its default), texts are byte strings.
-/

namespace Verif.TeXFile

open Verif.TeX (Str Node Arg isSpace printArg splitLines findSub toNodes)

/-- The exceptions loading a file can raise; `tex` is one of `text_to_nodes`. -/
inductive Err where
  | tex (e : Verif.TeX.Err) | typeError | indexError | valueError | assertion | hangs
deriving DecidableEq, Repr

/-- The nodes of a loaded file: those of `text_to_nodes` and `Comment` (838-863; `nl`: the comment has
a `Newline` as its child). -/
inductive FNode where
  | text (t : Str)
  | newline
  | env (name : Str) (children : List FNode)
  | math (display : Bool) (children : List FNode)
  | cmd (name : Str) (args : List Arg)
  | trailing (name : Str) (c : Char)
  | enc (pad : Str) (cmd : Node) (children : List FNode)
  | comment (t : Str) (nl : Bool)

mutual
/-- `TeXNode.__call__` (113-131) as in `Verif.TeX.print`; a comment prints its `%`, its text and its
child (862-863). -/
def print : FNode → Str
  | .text t => t
  | .newline => ['\n']
  | .env n cs => "\\begin{".toList ++ n ++ ['}'] ++ printL cs ++ ("\\end{".toList ++ n ++ ['}'])
  | .math d cs => (if d then ['$', '$'] else ['$']) ++ printL cs ++ (if d then ['$', '$'] else ['$'])
  | .cmd n args => '\\' :: n ++ (args.map printArg).flatten
  | .trailing n c => '\\' :: n ++ [c]
  | .enc p c cs => '{' :: p ++ Verif.TeX.print c ++ printL cs ++ ['}']
  | .comment t nl => '%' :: t ++ (if nl then ['\n'] else [])
/-- `''.join([c() for c in children])`. -/
def printL : List FNode → Str
  | [] => []
  | n :: ns => print n ++ printL ns
end

/-! ### Taking the comments out (publication.py 208-231) -/

/-- `str(i)` of a natural number. -/
def str (i : Nat) : Str := Nat.toDigits 10 i

/-- `a in b` for strings. -/
def contains (b a : Str) : Bool := (findSub a b).isSome

/-- publication.py 216. -/
def baseName : Str := "astppubcomment".toList

/-- publication.py 216-220: the loop, from `commentcmdname = name` and `i`; at most `fuel` rounds. -/
def nameFrom (f : Str) : Nat → Nat → Str → Option Str
  | fuel, i, name =>
    if contains f name then
      match fuel with
      | 0 => none
      | fuel + 1 => nameFrom f fuel (i + 1) (baseName ++ str i)
    else some name

/-- publication.py 216-220 (the number of rounds is shown to be enough). -/
def commentName (f : Str) : Option Str := nameFrom f (10 ^ f.length + 1) 0 baseName

/-- `_commentre.search(l)` (75: a `%` not preceded by a backslash): the text before the match and the
text from the `%` on.  `esc`: the preceding character is a backslash. -/
def commentAt (esc : Bool) : Str → Option (Str × Str)
  | [] => none
  | c :: l =>
    if c = '%' ∧ esc = false then some ([], c :: l)
    else (commentAt (c == '\\') l).map (fun p => (c :: p.1, p.2))

/-- publication.py 228: what stands for the comment number `k`. -/
def mark (name : Str) (k : Nat) : Str := '\\' :: name ++ '{' :: str k ++ ['}']

/-- publication.py 223-229: the lines with the comments replaced, and the comments; `k` comments were
found before. -/
def markLines (name : Str) : Nat → List Str → List Str × List Str
  | _, [] => ([], [])
  | k, l :: ls =>
    match commentAt false l with
    | some (a, c) => ((a ++ mark name k) :: (markLines name (k + 1) ls).1, c :: (markLines name (k + 1) ls).2)
    | none => (l :: (markLines name k ls).1, (markLines name k ls).2)

/-- publication.py 231-240: the lines before the first line that contains `\begin{document}` and, if
there is one, the lines from it on. -/
def splitDoc : List Str → List Str × Option (List Str)
  | [] => ([], none)
  | l :: ls =>
    if contains l "\\begin{document}".toList then ([], some (l :: ls))
    else (l :: (splitDoc ls).1, (splitDoc ls).2)

/-- `'\n'.join(ls)`. -/
def joinLines : List Str → Str
  | [] => []
  | [l] => l
  | l :: ls => l ++ '\n' :: joinLines ls

/-! ### The preamble (publication.py 777-832) -/

/-- `Command.reqargs` (602-603). -/
def reqargs : List Arg → List Str
  | [] => []
  | .req t :: l => t :: reqargs l
  | .opt _ :: l => reqargs l

/-- `Command.optargs` (618-619). -/
def optargs : List Arg → List Str
  | [] => []
  | .req _ :: l => optargs l
  | .opt t :: l => t :: optargs l

/-- `val.strip() == ''`. -/
def blank (t : Str) : Bool := t.all isSpace

/-- publication.py 789-792 with the setters of `docclass` (804-807) and `docclassopts` (815-831): the
arguments of `\documentclass` afterwards.  With one required and at most one optional argument,
setting them (604-614, 620-630) removes a blank option, and the required argument is put last. -/
def classArgs (args : List Arg) : Except Err (List Arg) :=
  match reqargs args with
  | [] => .error .indexError
  | [r] =>
    match optargs args with
    | [] => .ok [.req r]
    | [o] => if blank o then .ok [.req r] else .ok [.opt o, .req r]
    | _ => .error .assertion
  | _ => .error .assertion

/-- publication.py 787-794: the children of the preamble are looked at one after the other. -/
def preamble : List Node → Except Err (List Node)
  | [] => .ok []
  | .cmd n args :: ns =>
    if n = "documentclass".toList then
      match classArgs args with
      | .error e => .error e
      | .ok args' =>
        match preamble ns with
        | .error e => .error e
        | .ok r => .ok (.cmd n args' :: r)
    else if n = "usepackage".toList ∧ reqargs args = [] then .error .indexError
    else
      match preamble ns with
      | .error e => .error e
      | .ok r => .ok (.cmd n args :: r)
  | n :: ns =>
    match preamble ns with
    | .error e => .error e
    | .ok r => .ok (n :: r)

/-! ### Putting the comments back (publication.py 268-295) -/

/-- `int(t)` for a string of digits (anything else: ValueError). -/
def readNat (t : Str) : Option Nat :=
  if t ≠ [] ∧ t.all Char.isDigit = true then some (t.foldl (fun n c => 10 * n + (c.toNat - 48)) 0) else none

/-- `commentlist[int(node.reqargs[0])]` (294) as a `Comment` (847-860: the `%` is dropped). -/
def commentNode (cs : List Str) (args : List Arg) : Except Err FNode :=
  match reqargs args with
  | [] => .error .indexError
  | t :: _ =>
    match readNat t with
    | none => .error .valueError
    | some k =>
      match cs[k]? with
      | none => .error .indexError
      | some [] => .ok (.comment [] false)
      | some (c :: l) => .ok (.comment (if c = '%' then l else c :: l) false)

def isComment : Option FNode → Bool
  | some (.comment _ _) => true
  | _ => false

/-- `isinstance(c,TeXt)` (`Newline` is a subclass). -/
def isTeXt : Option FNode → Bool
  | some (.text _) => true
  | some .newline => true
  | _ => false

def isNewline : Option FNode → Bool
  | some .newline => true
  | _ => false

def isEmptyText : FNode → Bool
  | .text [] => true
  | _ => false

/-- publication.py 280-284: is the child `c` deleted? -/
def deleted (last2 last : Option FNode) (c : FNode) : Bool :=
  (isComment last && isEmptyText c) || (isComment last2 && isTeXt last && isNewline (some c))

/-- publication.py 284: a comment followed by text and a new line is given the new line. -/
def withNewline (c : FNode) (next next2 : Option FNode) : FNode :=
  match c with
  | .comment t nl => .comment t (nl || (isTeXt next && isNewline next2))
  | c => c

/-- publication.py 269-291: the loop over the children, which here are already replaced (the loop
replaces each child after its own test; only commands are replaced, and they are not deleted). -/
def tidy (last2 last : Option FNode) : List FNode → List FNode
  | [] => []
  | c :: l =>
    if deleted last2 last c then tidy last (some c) l
    else withNewline c l[0]? l[1]? :: tidy last (some c) l

mutual
/-- publication.py 268-294: a node with the comments put back. -/
def addin (name : Str) (cs : List Str) : Node → Except Err FNode
  | .text t => .ok (.text t)
  | .newline => .ok .newline
  | .env n ns =>
    match addinL name cs ns with
    | .error e => .error e
    | .ok l => .ok (.env n (tidy none none l))
  | .math d ns =>
    match addinL name cs ns with
    | .error e => .error e
    | .ok l => .ok (.math d (tidy none none l))
  | .cmd n args => if n = name then commentNode cs args else .ok (.cmd n args)
  | .trailing n c => .ok (.trailing n c)
  | .enc p c ns =>
    match addinL name cs ns with
    | .error e => .error e
    | .ok l => .ok (.enc p c (tidy none none l))
/-- The children, replaced but not yet tidied. -/
def addinL (name : Str) (cs : List Str) : List Node → Except Err (List FNode)
  | [] => .ok []
  | n :: ns =>
    match addin name cs n with
    | .error e => .error e
    | .ok x =>
      match addinL name cs ns with
      | .error e => .error e
      | .ok l => .ok (x :: l)
end

/-! ### The file -/

/-- A loaded file: the children of its preamble and the children after it. -/
structure File where
  pre : List FNode
  content : List FNode

/-- publication.py 243-257 after the text was divided: the preamble, the content, the comments put
back.  (The first child of the file is the preamble, which is not a `Comment`, so the other children
are tidied as if they were alone.) -/
def build (name : Str) (cs : List Str) (pre con : List Str) : Except Err File :=
  match toNodes (joinLines pre ++ ['\n']) with
  | .error e => .error (.tex e)
  | .ok ps =>
    match preamble ps with
    | .error e => .error e
    | .ok ps =>
      match toNodes (joinLines con) with
      | .error e => .error (.tex e)
      | .ok ns =>
        match addinL name cs ps with
        | .error e => .error e
        | .ok p =>
          match addinL name cs ns with
          | .error e => .error e
          | .ok c => .ok ⟨tidy none none p, tidy none none c⟩

/-- `TeXFile._parse` (203-257). -/
def parseFile (f : Str) : Except Err File :=
  match commentName f with
  | none => .error .hangs
  | some name =>
    match splitDoc (markLines name 0 (splitLines f)).1 with
    | (_, none) => .error .typeError
    | (pre, some con) => build name (markLines name 0 (splitLines f)).2 pre con

/-- What `TeXFile()` returns and `save` writes (259-266). -/
def fileText (F : File) : Str := printL F.pre ++ printL F.content

end Verif.TeXFile
