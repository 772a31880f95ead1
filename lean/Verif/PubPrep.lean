import Mathlib.Tactic.SplitIfs
import Mathlib.Data.List.Basic
import Verif.TeXFileProps

/-!
# Preparing a manuscript for submission: the files (astropysics/publication.py 1035-1413) (C165, C166)

`prep_for_arxiv_pub` and `prep_for_apj_pub` as operations on a file system.  Loading the TeX file with everything done to it before the
directory is made (publication.py 1084-1120, 1242-1309: parsing, removal of comments, of what follows the document, document class,
deluxetables) is the parameter `load`, which gives the commands with file names of every figure environment in order, the arguments of the
`\bibliography` commands, and the rest; `render` is the text of the document.  Printed messages are left out.  Paths are texts; equal
files have equal texts, there are no links.
-/

namespace Verif.PubPrep

abbrev Text := List Char

/-- Exceptions: IOError, OSError, ValueError, IndexError, UnboundLocalError, `shutil.Error` and others. -/
inductive Err
  | io | os | value | index | unbound | same | other
  deriving DecidableEq

/-- A file with its contents, or a directory. -/
inductive Item (C : Type)
  | file (c : C)
  | dir
  deriving DecidableEq

/-- A file system. -/
abbrev FS (C : Type) := List (Text × Item C)

variable {C T : Type}

/-- What is at a path. -/
def find : FS C → Text → Option (Item C)
  | [], _ => none
  | (p, i) :: fs, q => if p = q then some i else find fs q

/-- `os.path.exists`. -/
def exist (fs : FS C) (p : Text) : Bool := (find fs p).isSome

/-- Write or make. -/
def put (fs : FS C) (p : Text) (i : Item C) : FS C := (p, i) :: fs.filter (fun e => decide (e.1 ≠ p))

/-- `os.path.split(p)[-1]`. -/
def base (p : Text) : Text := (p.reverse.takeWhile (fun c => c != '/')).reverse
/-- `os.path.split(p)[0]` for a path without repeated separators. -/
def dirname (p : Text) : Text := ((p.reverse.dropWhile (fun c => c != '/')).drop 1).reverse

/-- `os.path.join`. -/
def join (a b : Text) : Text :=
  if b.head? = some '/' then b else if a = [] || a.getLast? = some '/' then a ++ b else a ++ '/' :: b

/-- `s.endswith(t)`. -/
def ends (t s : Text) : Bool := decide (t <:+ s)

/-- `p` is the directory `d` or below it. -/
def below (d p : Text) : Bool := decide (p = d) || decide ((d ++ ['/']) <+: p)

/-- A place where something can be made: the current directory (or the root) or one that exists. -/
def placeOk (fs : FS C) (p : Text) : Bool := decide (dirname p = []) || (match find fs (dirname p) with | some .dir => true | _ => false)

/-- `shutil.rmtree`. -/
def rmtree (fs : FS C) (d : Text) : FS C := fs.filter (fun e => !below d e.1)

/-- `os.mkdir`. -/
def mkdir (fs : FS C) (d : Text) : FS C × Except Err Text :=
  if d = [] || exist fs d || !placeOk fs d then (fs, .error .os) else (put fs d .dir, .ok d)

/-- `newdir+'_'+str(idir)`. -/
def numbered (d : Text) (n : Nat) : Text := d ++ '_' :: TeXFile.str n

/-- The loop of publication.py 1134-1136, for at most the given number of rounds (`fs.length` are enough, `choose_numbered`). -/
def firstFree (fs : FS C) (d : Text) : Nat → Nat → Nat
  | 0, n => n
  | k + 1, n => if exist fs (numbered d n) then firstFree fs d k (n + 1) else n

/-- `if newdir.endswith(os.sep): newdir = newdir[:-1]`. -/
def chop (d : Text) : Text := if ends ['/'] d then d.dropLast else d

/-- The directory, publication.py 1122-1138 and 1311-1327. -/
def chooseDir (fs : FS C) (newdir : Text) (over : Bool) : FS C × Except Err Text :=
  let d := chop newdir
  match find fs d with
  | none => mkdir fs d
  | some (.file _) => (fs, .error .io)
  | some .dir => if over then mkdir (rmtree fs d) d else mkdir fs (numbered d (firstFree fs d fs.length 2))

/-! ## The document -/

/-- The commands with file names, publication.py 487. -/
inductive Kind
  | plotone | plottwo | plotfiddle | includegraphics
  deriving DecidableEq

/-- An argument of a command. -/
inductive Arg
  | req (t : Text)
  | opt (t : Text)
  deriving DecidableEq

def reqs : List Arg → List Text
  | [] => []
  | .req t :: l => t :: reqs l
  | .opt _ :: l => reqs l

/-- A command with file names. -/
structure Cmd where
  kind : Kind
  args : List Arg

/-- A document: the commands of its figures, the arguments of its `\bibliography` commands, everything else. -/
structure Doc (T : Type) where
  figs : List (List Cmd)
  bibs : List (List Arg)
  rest : T

/-- `l[i]`. -/
def item (l : List Text) (i : Nat) : Except Err Text :=
  match l[i]? with
  | some t => .ok t
  | none => .error .index

/-- The names of one command, publication.py 492-495. -/
def cmdNames (c : Cmd) : Except Err (List Text) :=
  match item (reqs c.args) 0 with
  | .error e => .error e
  | .ok a =>
    if c.kind = .plottwo then
      match item (reqs c.args) 1 with
      | .error e => .error e
      | .ok b => .ok [a, b]
    else .ok [a]

/-- A loop that collects, ending at the first exception. -/
def collect {α β : Type} (f : α → Except Err (List β)) : List α → Except Err (List β)
  | [] => .ok []
  | a :: l =>
    match f a with
    | .error e => .error e
    | .ok x =>
      match collect f l with
      | .error e => .error e
      | .ok xs => .ok (x ++ xs)

/-- `Figure.filenames`, publication.py 490-496. -/
def names (fig : List Cmd) : Except Err (List Text) := collect cmdNames fig

/-- The inner loop of `_setFilenames`, publication.py 504-507: every required argument gets the next name. -/
def assign : List Arg → List Text → Except Err (List Arg × List Text)
  | [], ns => .ok ([], ns)
  | .opt o :: l, ns =>
    match assign l ns with
    | .error e => .error e
    | .ok r => .ok (.opt o :: r.1, r.2)
  | .req _ :: _, [] => .error .index
  | .req _ :: l, n :: ns =>
    match assign l ns with
    | .error e => .error e
    | .ok r => .ok (.req n :: r.1, r.2)

def assignAll : List Cmd → List Text → Except Err (List Cmd)
  | [], _ => .ok []
  | c :: l, ns =>
    match assign c.args ns with
    | .error e => .error e
    | .ok r =>
      match assignAll l r.2 with
      | .error e => .error e
      | .ok cs => .ok ({ c with args := r.1 } :: cs)

/-- `figenv.filenames = val`, publication.py 497-507. -/
def setNames (fig : List Cmd) (val : List Text) : Except Err (List Cmd) :=
  match names fig with
  | .error e => .error e
  | .ok old => if val.length ≠ old.length then .error .value else assignAll fig val

/-! ## Files -/

/-- `if not texfn.endswith('.tex') and os.path.exists(texfn+'.tex')`, publication.py 1079-1080. -/
def texName (fs : FS C) (t : Text) : Text :=
  if !ends ".tex".toList t && exist fs (t ++ ".tex".toList) then t ++ ".tex".toList else t

/-- `exts`, publication.py 1147. -/
def dotted (e : Text) : Text := if e.head? = some '.' then e else '.' :: e

/-- Copying a list of files (source and destination), those that exist, publication.py 1148-1158 and 1351-1361.  The destinations are
files in the new directory. -/
def copies (fs : FS C) : List (Text × Text) → FS C × Option Err
  | [] => (fs, none)
  | (s, d) :: l =>
    match find fs s with
    | none => copies fs l
    | some .dir => (fs, some .io)
    | some (.file c) => if s = d then (fs, some .same) else copies (put fs d (.file c)) l

/-- What is in a directory, publication.py 1190-1191: names and contents; the archive itself is left out by `tarfile`. -/
def members (fs : FS C) (d tfn : Text) : List (Text × Item C) :=
  fs.filterMap (fun e => if dirname e.1 = d ∧ e.1 ≠ d ∧ e.1 ≠ tfn then some (base e.1, e.2) else none)

/-- The archive, publication.py 1185-1191: a file can be opened for writing where there is a directory to hold it, and where there is
no directory. -/
def archive (pack : List (Text × Item C) → C) (fs : FS C) (d tfn : Text) : FS C × Except Err Text :=
  if placeOk fs tfn && !(match find fs tfn with | some .dir => true | _ => false) then (put fs tfn (.file (pack (members fs d tfn))), .ok d) else (fs, .error .io)

/-- The files of the figures for arXiv with their destinations, publication.py 1141-1158. -/
def arxivFiles (d : Text) (exts fns : List Text) : List (Text × Text) :=
  fns.flatMap (fun fn => exts.map (fun e => (fn ++ e, join d (base (fn ++ e)))))

/-- The bibliography for arXiv, publication.py 1170-1182: what is copied. -/
def arxivBib (fs : FS C) (d tex : Text) (bibs : List Text) : List (Text × Text) :=
  let bbl := (base tex).dropLast.dropLast.dropLast.dropLast ++ ".bbl".toList
  if exist fs bbl then [(bbl, join d bbl)]
  else match bibs with
    | [b] => [(b ++ ".bib".toList, join d (base (b ++ ".bib".toList)))]
    | _ => []

/-- `prep_for_arxiv_pub(texfn,newdir,overwritedir,figexts)`, publication.py 1035-1193: the files afterwards, and the directory or the
exception. -/
def arxiv (load : FS C → C → Except Err (Doc T)) (render : Doc T → C) (pack : List (Text × Item C) → C) (fs : FS C) (texfn newdir : Text) (over : Bool)
    (figexts : List Text) : FS C × Except Err Text :=
  let tex := texName fs texfn
  match find fs tex with
  | none => (fs, .error .io)
  | some .dir => (fs, .error .io)
  | some (.file c) =>
    match load fs c with
    | .error e => (fs, .error e)
    | .ok doc =>
      match chooseDir fs newdir over with
      | (fs1, .error e) => (fs1, .error e)
      | (fs1, .ok d) =>
        match collect names doc.figs with
        | .error e => (fs1, .error e)
        | .ok fns =>
          match copies fs1 (arxivFiles d (figexts.map dotted) fns) with
          | (fs2, some e) => (fs2, .error e)
          | (fs2, none) =>
            match collect (fun b => (item (reqs b) 0).map (fun t => [t])) doc.bibs with
            | .error e => (fs2, .error e)
            | .ok bibs =>
              let out := join d (base tex)
              let out := if ends ".tex".toList out then out else out ++ ".tex".toList
              let fs3 := put fs2 out (.file (render doc))
              match copies fs3 (arxivBib fs3 d out bibs) with
              | (fs4, some e) => (fs4, .error e)
              | (fs4, none) => archive pack fs4 d (join d (d ++ ".tar.gz".toList))

/-- `chr(97+j)` for a list of numbers. -/
def letters : List Nat → Except Err (List Char)
  | [] => .ok []
  | j :: l =>
    if 97 + j < 256 then
      match letters l with
      | .error e => .error e
      | .ok cs => .ok (Char.ofNat (97 + j) :: cs)
    else .error .value

/-- The new names of the files of figure number `i`, publication.py 1335-1341. -/
def newNames (i k : Nat) : Except Err (List Text) :=
  if k = 1 then .ok ['f' :: TeXFile.str (i + 1)]
  else match letters (List.range k) with
    | .error e => .error e
    | .ok cs => .ok (cs.map (fun c => 'f' :: TeXFile.str (i + 1) ++ [c]))

/-- `filenamemap.update(...)`: an old name met again gets another new name. -/
def update (m : List (Text × Text)) : List (Text × Text) → List (Text × Text)
  | [] => m
  | (k, v) :: l => update ((k, v) :: m.filter (fun e => decide (e.1 ≠ k))) l

/-- The loop over the figures, publication.py 1334-1342: the figures afterwards and the dictionary. -/
def rename (i : Nat) (m : List (Text × Text)) : List (List Cmd) → Except Err (List (List Cmd) × List (Text × Text))
  | [] => .ok ([], m)
  | fig :: l =>
    match names fig with
    | .error e => .error e
    | .ok old =>
      match newNames i old.length with
      | .error e => .error e
      | .ok new =>
        match setNames fig new with
        | .error e => .error e
        | .ok fig' =>
          match rename (i + 1) (update m (old.zip new)) l with
          | .error e => .error e
          | .ok r => .ok (fig' :: r.1, r.2)

/-- The files of the figures for ApJ, in the order of the dictionary, publication.py 1351-1358. -/
def apjFiles (d : Text) (exts : List Text) (m : List (Text × Text)) : List (Text × Text) :=
  m.flatMap (fun e => exts.map (fun x => (e.1 ++ x, join d (e.2 ++ x))))

/-- `bibs[0].children[0].text = 'ms'`. -/
def toMs : List Arg → List Arg
  | [] => []
  | .req _ :: l => .req "ms".toList :: l
  | .opt _ :: l => .opt "ms".toList :: l

/-- The bibliography for ApJ, publication.py 1365-1389: `bibcp` has no value unless the .bib file exists. -/
def apjBib (fs : FS C) (d tex : Text) : List (List Arg) → FS C × Except Err (List (List Arg))
  | [b] =>
    match item (reqs b) 0 with
    | .error e => (fs, .error e)
    | .ok t =>
      let bib := t ++ ".bib".toList
      let bbl := tex.dropLast.dropLast.dropLast.dropLast ++ ".bbl".toList
      match copies fs [(bib, join d "ms.bib".toList), (bbl, join d "ms.bbl".toList)] with
      | (fs', some e) => (fs', .error e)
      | (fs', none) => if exist fs bib then (fs', .ok [toMs b]) else (fs', .error .unbound)
  | bs => (fs, .ok bs)

/-- `prep_for_apj_pub(texfn,newdir,overwritedir,figexts)`, publication.py 1195-1411; `order` is the order of the dictionary. -/
def apj (load : FS C → C → Except Err (Doc T)) (render : Doc T → C) (pack : List (Text × Item C) → C) (order : List (Text × Text) → List (Text × Text))
    (fs : FS C) (texfn newdir : Text) (over : Bool) (figexts : List Text) : FS C × Except Err Text :=
  let tex := texName fs texfn
  match find fs tex with
  | none => (fs, .error .io)
  | some .dir => (fs, .error .io)
  | some (.file c) =>
    match load fs c with
    | .error e => (fs, .error e)
    | .ok doc =>
      match chooseDir fs newdir over with
      | (fs1, .error e) => (fs1, .error e)
      | (fs1, .ok d) =>
        match rename 0 [] doc.figs with
        | .error e => (fs1, .error e)
        | .ok r =>
          match copies fs1 (apjFiles d (figexts.map dotted) (order r.2)) with
          | (fs2, some e) => (fs2, .error e)
          | (fs2, none) =>
            match apjBib fs2 d tex doc.bibs with
            | (fs3, .error e) => (fs3, .error e)
            | (fs3, .ok bs) =>
              archive pack (put fs3 (join d "ms.tex".toList) (.file (render ⟨r.1, bs, doc.rest⟩))) d (join d "ms.tar.gz".toList)

end Verif.PubPrep
