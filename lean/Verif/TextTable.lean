import Mathlib.Data.Real.Basic
import Mathlib.Analysis.SpecialFunctions.Log.Basic
import Mathlib.Data.List.Sort
import Mathlib.Data.List.Dedup
import Mathlib.Data.Char

/-!
# Text tables of a catalog (astropysics/objcat.py 3751-4064)

`TextTableAction._doAction` from the extracted columns on (the extraction is `FieldExtract`).  Texts are lists of characters.
`fmt % x` is a function of the column.  Not modelled: writing `savefile`; more than 31 different sources (`np.choose`).
-/

namespace Verif.TextTable

/-- The exceptions: ValueError, TypeError, UnboundLocalError, IndexError, AttributeError. -/
inductive Err
  | value | type | unbound | index | attribute
deriving DecidableEq

abbrev Text := List Char

/-! ## Numbers for the sources -/

/-- `str(None)`. -/
def noneText : Text := "None".toList

/-- `srcs[srcs.astype('S9')=='dependent'] = 'None'`, objcat.py 3906: every source whose name begins so. -/
def clean (s : Text) : Text := if s.take 9 = "dependent".toList then noneText else s

/-- `np.unique`. -/
def unique (l : List Text) : List Text := l.dedup.insertionSort (fun a b => a ≤ b)

/-- `usrcs[usrcs=='None'] = usrcs[0]; usrcs[0] = 'None'`, or 'None' in front, objcat.py 3907-3913. -/
def noneFirst (l : List Text) : List Text :=
  if noneText ∈ l then
    match l.set (l.idxOf noneText) (l.headD []) with
    | [] => []
    | _ :: t => noneText :: t
  else noneText :: l

/-- The order in which the codes appear, objcat.py 3919-3922. -/
def appear : List Nat → List Nat → List Nat
  | acc, [] => acc
  | acc, c :: l => appear (if c ∈ acc then acc else acc ++ [c]) l

/-- `np.argsort`. -/
def argsort (l : List Nat) : List Nat := (List.range l.length).insertionSort (fun i j => l.getD i 0 ≤ l.getD j 0)

/-- `ocodes.remove(0); ocodes.insert(0, 0)`, objcat.py 3923-3924: without a zero ValueError. -/
def zeroFirst (l : List Nat) : Except Err (List Nat) := if 0 ∈ l then .ok (0 :: l.erase 0) else .error .value

/-- `[s for s in np.unique(src)]` without the zero, objcat.py 3930-3934. -/
def rowCodes (l : List Nat) : List Nat := (l.dedup.insertionSort (fun a b => a ≤ b)).erase 0

/-- Numbers for the sources, objcat.py 3904-3939: `rows` are the sources of each object.  The numbers of each object, and the sources
from number 0 on. -/
def sourceCodes (rows : List (List Text)) : Except Err (List (List Nat) × List Text) :=
  let srcs := rows.map fun r => r.map clean
  let usrcs := noneFirst (unique srcs.flatten)
  let codes := srcs.map fun r => r.map fun s => usrcs.idxOf s
  match zeroFirst (appear [] codes.flatten) with
  | .error e => .error e
  | .ok ocodes =>
    let q := argsort ocodes
    .ok (codes.map (fun r => rowCodes (r.map fun c => q.getD c 0)), ocodes.map fun c => usrcs.getD c [])

/-! ## The table -/

/-- A number in decimal digits. -/
def digits (n : Nat) : Text := (Nat.repr n).toList

/-- `sep.join(l)`. -/
def join (sep : Text) : List Text → Text
  | [] => []
  | [a] => a
  | a :: l => a ++ sep ++ join sep l

/-- The annotation with the sources, objcat.py 3938-3939: `l` are the sources from number `n` on. -/
def numbered : Nat → List Text → List Text
  | _, [] => []
  | n, s :: l => (" ".toList ++ digits n ++ ") ".toList ++ s) :: numbered (n + 1) l

/-- `srcannotation`. -/
def annotation (usrcs : List Text) : Text := "Source Code:".toList ++ join ",".toList (numbered 1 usrcs.tail) ++ ".".toList

/-- The value of an object and its errors; `none` is a masked value. -/
structure Cell where
  val : Option ℝ
  up : ℝ
  low : ℝ

/-- A column: the name, and the extracted values unless it is the column of sources. -/
structure Column where
  isSource : Bool
  title : Text
  fmt : ℝ → Text
  /-- what `fmt % text` gives; `none` is a TypeError. -/
  fmtText : Text → Option Text
  log : Bool
  cells : List Cell
  srcs : List Text

/-- The formats. -/
inductive Format
  | ascii (sep : Text)
  | latex | deluxe | other
deriving DecidableEq

/-- The settings of the node. -/
structure Config where
  format : Format
  details : Option (List Text)
  caption : Option Text
  errors : Bool
  sort : Bool

/-- `np.log10`. -/
noncomputable def log10 (x : ℝ) : ℝ := Real.log x / Real.log 10

/-- A cell of a logarithmic column, objcat.py 3890-3896: the sign in the lower error is that of the code. -/
noncomputable def logCell (c : Cell) : Cell :=
  match c.val with
  | none => c
  | some a => ⟨some (log10 a), log10 (a + c.up) - log10 a, log10 (a - c.low) + log10 a⟩

/-- The cells that are printed. -/
noncomputable def shown (c : Column) : List Cell := if c.log then c.cells.map logCell else c.cells

/-- An entry of the table: a value with its errors, or the text of the source column (whose errors are the number 0). -/
inductive Entry
  | num (c : Cell)
  | text (t : Text)

/-- `','.join(lsrc)`. -/
def codeText (l : List Nat) : Text := join ",".toList (l.map digits)

/-- The sources of every object, objcat.py 3881-3905: the columns without the source column, transposed. -/
def sourceRows (n : Nat) (cols : List Column) : List (List Text) :=
  (List.range n).map fun i => (cols.filter fun c => !c.isSource).map fun c => c.srcs.getD i []

/-- The entries of the row `i`; `codes` are the numbers of the sources. -/
noncomputable def rowEntries (codes : List (List Nat)) (i : Nat) (cols : List Column) : List (Column × Entry) :=
  cols.map fun c => (c, if c.isSource then .text (codeText (codes.getD i [])) else .num ((shown c).getD i ⟨none, 0, 0⟩))

/-- All or the first exception. -/
def sequence {α : Type} : List (Except Err α) → Except Err (List α)
  | [] => .ok []
  | x :: l => match x with
    | .error e => .error e
    | .ok a => match sequence l with
      | .error e => .error e
      | .ok as => .ok (a :: as)

/-- One entry of a LaTeX table, objcat.py 3987-3998, 4031-4042; `tuple(0)` is a TypeError. -/
noncomputable def texEntry (errors : Bool) : Column × Entry → Except Err Text
  | (c, .num x) => match x.val with
    | none => .ok "\\nodata".toList
    | some v => if errors then .ok (c.fmt v ++ "^{+".toList ++ c.fmt x.up ++ "}_{-".toList ++ c.fmt x.low ++ "}".toList) else .ok (c.fmt v)
  | (c, .text t) => if errors then .error .type else match c.fmtText t with
    | none => .error .type
    | some u => .ok u

/-- A row of a LaTeX table. -/
noncomputable def texRow (errors : Bool) (es : List (Column × Entry)) : Except Err Text :=
  match sequence (es.map (texEntry errors)) with
  | .error e => .error e
  | .ok ss => .ok (join " & ".toList ss ++ (if errors then "\\\\".toList else " \\\\".toList))

/-- One entry of an ascii table, objcat.py 3962-3973; with errors the upper and lower one are averaged, and the sum over a source column has no elements to
take, so it is a TypeError.  A masked value with errors is printed as the format prints 0 here (`float(masked)`, whatever it is, is not modelled). -/
noncomputable def asciiEntry (errors : Bool) : Column × Entry → Except Err (List Text)
  | (c, .num x) => if errors then .ok [c.fmt (x.val.getD 0), c.fmt ((x.up + x.low) / 2)] else match x.val with
    | none => .ok ["...".toList]
    | some v => .ok [c.fmt v]
  | (c, .text t) => if errors then .error .type else match c.fmtText t with
    | none => .error .type
    | some u => .ok [u]

/-- A row of an ascii table. -/
noncomputable def asciiRow (errors : Bool) (sep : Text) (es : List (Column × Entry)) : Except Err Text :=
  match sequence (es.map (asciiEntry errors)) with
  | .error e => .error e
  | .ok ss => .ok (join sep ss.flatten)

/-- `lines[-1] = lines[-1][:-2]`. -/
def cutLast (l : List Text) : List Text :=
  match l.reverse with
  | [] => []
  | a :: r => r.reverse ++ [a.take (a.length - 2)]

/-- `caption.split('\n')`. -/
def splitLines : Text → List Text
  | [] => [[]]
  | c :: t => match splitLines t with
    | [] => [[c]]
    | h :: r => if c = '\n' then [] :: h :: r else (c :: h) :: r

/-- The titles of an ascii table, objcat.py 3949-3954. -/
def asciiTitles (errors : Bool) (titles : List Text) : List Text :=
  if errors then (titles.map fun t => [t, t ++ "_err".toList]).flatten else titles

/-- The remarks below the title line of an ascii table, objcat.py 3957-3964: `storesources is not None` is always true, so without details the
annotation is printed, whether there is one or not. -/
def asciiNotes (details : Option (List Text)) (titles : List Text) (ann : Option Text) : Except Err (List Text) :=
  match details with
  | some ds => .ok ((titles.zip ds).map fun p => "#".toList ++ p.1 ++ ": ".toList ++ p.2)
  | none => match ann with
    | none => .error .unbound
    | some a => .ok ["#".toList ++ a]

/-- An ascii table, objcat.py 3943-3974. -/
noncomputable def asciiTable (g : Config) (sep : Text) (titles : List Text) (ann : Option Text) (rows : List (List (Column × Entry))) : Except Err (List Text) :=
  let ti := asciiTitles g.errors titles
  match asciiNotes g.details ti ann with
  | .error e => .error e
  | .ok notes => match sequence (rows.map (asciiRow g.errors sep)) with
    | .error e => .error e
    | .ok body =>
      .ok (["#".toList ++ join sep ti] ++ (match g.caption with
        | none => []
        | some [] => []
        | some c => (splitLines c).map fun l => "#".toList ++ l) ++ notes ++ body)

/-- The caption of a LaTeX table, objcat.py 4002-4006. -/
def latexCaption (caption : Option Text) (ann : Option Text) : Text :=
  let c := caption.getD []
  match ann with
  | none => c
  | some a => c ++ (if c.getLast? = some '.' then " ".toList else ". ".toList) ++ a

/-- A LaTeX table, objcat.py 3975-4009. -/
noncomputable def latexTable (g : Config) (titles : List Text) (ann : Option Text) (rows : List (List (Column × Entry))) : Except Err (List Text) :=
  match sequence (rows.map (texRow g.errors)) with
  | .error e => .error e
  | .ok body =>
    let head := ["\\begin{table}[htbp]".toList, "\\begin{tabular}{".toList ++ join "|".toList (titles.map fun _ => " c ".toList) ++ "}".toList,
      join " & ".toList titles ++ " \\\\".toList, "\\hline".toList]
    let cap := latexCaption g.caption ann
    .ok (cutLast (head ++ body) ++ ["\\end{tabular}".toList] ++
      (if cap = [] then [] else ["\\caption{".toList ++ cap ++ "}".toList]) ++ ["\\end{table}".toList])

/-- The letter of a note: `chr(97+i)`; ValueError beyond 255. -/
def letter (i : Nat) : Except Err Text := if i < 159 then .ok [Char.ofNat (97 + i)] else .error .value

/-- The column heads of a deluxetable, objcat.py 4016-4020: from column `i` on. -/
def deluxeHeads (details : Option (List Text)) : Nat → List Text → List (Except Err Text)
  | _, [] => []
  | i, t :: l => (match details with
      | none => .ok ("    \\colhead{".toList ++ t ++ "} &".toList)
      | some _ => match letter i with
        | .error e => .error e
        | .ok a => .ok ("    \\colhead{".toList ++ t ++ "\\tablenotemark{".toList ++ a ++ "}} &".toList)) :: deluxeHeads details (i + 1) l

/-- The notes of a deluxetable, objcat.py 4053-4054. -/
def deluxeNotes : Nat → List Text → List (Except Err Text)
  | _, [] => []
  | i, d :: l => (match letter i with
      | .error e => .error e
      | .ok a => .ok ("\\tablenotetext{".toList ++ a ++ "}{".toList ++ d ++ "}".toList)) :: deluxeNotes (i + 1) l

/-- A deluxetable, objcat.py 4011-4058: without details the loop over them is a TypeError. -/
noncomputable def deluxeTable (g : Config) (titles : List Text) (rows : List (List (Column × Entry))) : Except Err (List Text) :=
  match sequence (deluxeHeads g.details 0 titles) with
  | .error e => .error e
  | .ok heads => match sequence (rows.map (texRow g.errors)) with
    | .error e => .error e
    | .ok body => match g.details with
      | none => .error .type
      | some ds => match sequence (deluxeNotes 0 ds) with
        | .error e => .error e
        | .ok notes =>
          .ok (cutLast (cutLast (["\\begin{deluxetable*}{".toList ++ titles.map (fun _ => 'c') ++ "}".toList, "\\tablecolumns{".toList ++ digits titles.length ++ "}".toList] ++
              (match g.caption with
              | none => []
              | some c => ["\\tablecaption{".toList ++ c ++ "}".toList]) ++ ["\\tablehead{".toList] ++ heads) ++
              ["}".toList, [], "\\startdata".toList, []] ++ body) ++
            [[], "\\enddata".toList, []] ++ notes ++ [[], "\\end{deluxetable*}".toList])

/-- `_doAction`, objcat.py 3839-4064, for `n` objects: the lines of the table.  `sort` uses a variable that exists only after the loop over the sources
(objcat.py 3941-3942), and then the column of sources is a list, which cannot be indexed with an array (an array
of one element can, so tables of one object that are sorted are not modelled).  An unknown format: the message mentions `self.format`, which does not
exist.  There is at least one column. -/
noncomputable def table (g : Config) (n : Nat) (cols : List Column) : Except Err (List Text) :=
  let stores := cols.any Column.isSource
  let lenOk := match g.details with
    | some ds => decide (ds.length = cols.length)
    | none => true
  if lenOk = false then .error .value
  else match (if stores then sourceCodes (sourceRows n cols) else .ok ([], [])) with
    | .error e => .error e
    | .ok (codes, usrcs) =>
      if g.sort then (if stores then (if usrcs.length ≤ cols.length then .error .type else .error .index) else .error .unbound)
      else
        let titles := cols.map Column.title
        let ann := if stores then some (annotation usrcs) else none
        let rows := (List.range n).map fun i => rowEntries codes i cols
        match g.format with
        | .ascii sep => asciiTable g sep titles ann rows
        | .latex => latexTable g titles ann rows
        | .deluxe => deluxeTable g titles rows
        | .other => .error .attribute

end Verif.TextTable
