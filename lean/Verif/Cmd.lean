import Mathlib.Analysis.Real.Sqrt
import Mathlib.Tactic.Linarith
import Mathlib.Tactic.Ring
import Mathlib.Tactic.NormNum
import Verif.CmdTables

/-!
# CMDAnalyzer: offsets from a fiducial sequence (astropysics/phot.py 1220-1665)

The object after construction, with its setters and the cached offsets.  Band names are texts without `-` and without
outer blanks, and different from each other (they are the keys of a dictionary); the text of a selection `"b1-b2"` is
given already split.
-/

namespace Verif.Cmd

open Verif.CmdTables (Table Entry Spec Warn look toDicts)

inductive Err
  | value | type | key | index | unmodelled
deriving DecidableEq, Repr

/-- One element of `_offbands`: a band name or a pair of names (a colour). -/
inductive Sel
  | one (b : String)
  | pair (b c : String)
deriving DecidableEq, Repr

/-- The attributes set by the constructor, phot.py 1238-1274.  A row of `_data` that is all NaN is `none`; an offset that
is not a finite number is `none`. -/
structure Cmd where
  names : List String
  fid : Table ℝ
  nfid : Nat
  fidnames : List (String × List Nat)
  dmod : ℝ
  data : Option (List (Option (List ℝ)))
  datamask : List Bool
  nd : Nat
  cen : List ℝ
  locs : Option (List (List ℝ))
  dnames : Option (List String)
  dgrp : Option (List Int)
  offsets : Option (List (Option ℝ))
  offbands : Option (List Sel)
  offws : Option (List ℝ)
  locw : Option ℝ

/-- `numpy.all(numpy.sort(vals) == numpy.arange(n))`, phot.py 1255: arrays of the same length are compared element by
element, an array of length one is compared with every element of the other one, and otherwise the result is False. -/
def sortedIsArange (vals : List Nat) (n : Nat) : Bool :=
  let s := vals.insertionSort (· ≤ ·)
  if s.length = n then s == List.range n
  else if s.length = 1 then (List.range n).all (fun x => s.head? == some x)
  else if n = 1 then s.all (fun x => x == 0)
  else false

/-- The `fidname` argument, phot.py 1245-1257: one name for everything, or a dictionary from names to indices. -/
def fidNames (n : Nat) : String ⊕ List (String × List Nat) → Except Err (List (String × List Nat))
  | .inl s => .ok [(s, List.range n)]
  | .inr d => if sortedIsArange (d.flatMap Prod.snd) n then .ok d else .error .value

/-- Translation of the errors of `_dataAndBandsToDicts`. -/
def errOf : CmdTables.Err → Err
  | .value => .value
  | .key => .key

/-- `CMDAnalyzer(fiducial,fbands,fidname)`, phot.py 1220-1274.  `order` lists the band names sorted by the bands'
wavelengths (`sorted(bandd.keys(),key=bandd.get)`), `n` is the number of fiducial points. -/
noncomputable def create (known : String → Bool) (order : Table ℝ → List String) (specs : List Spec) (rows : List (List ℝ)) (n : Nat)
    (fidname : String ⊕ List (String × List Nat)) : Except Err Cmd :=
  match toDicts known specs rows with
  | .error e => .error (errOf e)
  | .ok (t, _) =>
    match fidNames n fidname with
    | .error e => .error e
    | .ok d =>
      .ok { names := order t, fid := t, nfid := n, fidnames := d, dmod := 0, data := none,
            datamask := (order t).map (fun _ => false), nd := 0, cen := [0, 0, 0], locs := none, dnames := none,
            dgrp := none, offsets := none, offbands := none, offws := none, locw := some 1 }

/-! ## The fiducial data -/

/-- `_fdatadict[b]` (bands of the table). -/
def fidRow (s : Cmd) (b : String) : List ℝ :=
  match look s.fid b with
  | some e => e.data
  | none => []

/-- `_fidmask` at the position of `b`, or `_fmaskd[b]`. -/
def fidMask (s : Cmd) (b : String) : Bool :=
  match look s.fid b with
  | some e => e.mask
  | none => false

/-- `_data[lbns.index(b)]`. -/
def dataRow (s : Cmd) (b : String) : Option (List ℝ) := (s.data.getD []).getD (s.names.idxOf b) none

/-- `_datamask[lbns.index(b)]`. -/
def dataMask (s : Cmd) (b : String) : Bool := s.datamask.getD (s.names.idxOf b) false

/-- Elements at the positions `l` (numpy indexing with an array of indices). -/
def pick (row : List ℝ) (l : List Nat) : List ℝ := l.map (fun i => row.getD i 0)

/-- The positions of a named fiducial sequence, phot.py 1364-1367. -/
def positions (s : Cmd) : Option String → Except Err (List Nat)
  | none => .ok (List.range s.nfid)
  | some k => match s.fidnames.lookup k with
    | some l => .ok l
    | none => .error .key

/-- `getFiducialData("b",fidname)` for a band, phot.py 1355-1387. -/
noncomputable def getFidBand (s : Cmd) (b : String) (fidname : Option String) : Except Err (List ℝ) :=
  match positions s fidname with
  | .error e => .error e
  | .ok l =>
    match look s.fid b with
    | none => .error .value
    | some e => if e.mask then .ok ((pick e.data l).map (· + s.dmod)) else .error .value

/-- `getFiducialData("b1-b2",fidname)` for a colour, phot.py 1372-1379 (a single missing band is a `KeyError`). -/
noncomputable def getFidColor (s : Cmd) (b c : String) (fidname : Option String) : Except Err (List ℝ) :=
  match positions s fidname with
  | .error e => .error e
  | .ok l =>
    match look s.fid b, look s.fid c with
    | none, none => .error .value
    | some e, some f => if !e.mask && !f.mask then .error .value else .ok (List.zipWith (· - ·) (pick e.data l) (pick f.data l))
    | some _, none => .error .key
    | none, some _ => .error .key

/-! ## The offsets -/

/-- Difference of two data rows (NaN if one of them is). -/
def optSub : Option (List ℝ) → Option (List ℝ) → Option (List ℝ)
  | some a, some b => some (List.zipWith (· - ·) a b)
  | _, _ => none

/-- The fiducial values and the data of one selected band or colour, phot.py 1280-1284 and 1311-1318. -/
noncomputable def column (s : Cmd) : Sel → List ℝ × Option (List ℝ)
  | .one b => ((fidRow s b).map (· + s.dmod), dataRow s b)
  | .pair b c => (List.zipWith (· - ·) (fidRow s b) (fidRow s c), optSub (dataRow s b) (dataRow s c))

/-- The checks of phot.py 1289-1304. -/
def selOk (s : Cmd) : Sel → Bool
  | .one b => dataMask s b && fidMask s b
  | .pair b c => (fidMask s b && dataMask s b) || (fidMask s c && dataMask s c)

/-- The bands and colours used, phot.py 1279-1304. -/
def used (s : Cmd) : Except Err (List Sel) :=
  match s.offbands with
  | none => .ok ((s.names.filter (fun b => fidMask s b && dataMask s b)).map .one)
  | some l => if l.all (selOk s) then .ok l else .error .value

/-- `numpy.min` and `numpy.max` of a non-empty list. -/
noncomputable def lmin : List ℝ → ℝ
  | [] => 0
  | [a] => a
  | a :: b :: l => min a (lmin (b :: l))
noncomputable def lmax : List ℝ → ℝ
  | [] => 0
  | [a] => a
  | a :: b :: l => max a (lmax (b :: l))

/-- `diff` for one column: all differences fiducial minus data, phot.py 1322-1323. -/
noncomputable def diffs (f d : List ℝ) : List ℝ := d.flatMap (fun y => f.map (fun x => x - y))

/-- The weight of one column, phot.py 1325-1330: a negative one is divided by the range of the differences. -/
noncomputable def weight (f d : List ℝ) (w : ℝ) : ℝ :=
  if w < 0 then -w / (lmax (diffs f d) - lmin (diffs f d)) else w

/-- A negative weight whose range is zero (the division gives no finite number). -/
def badWeight (f d : List ℝ) (w : ℝ) : Prop := w < 0 ∧ lmax (diffs f d) = lmin (diffs f d)

/-- The weights of the columns: 1 if there are none. -/
def weightsOf (s : Cmd) (n : Nat) : List ℝ := s.offws.getD (List.replicate n 1)

/-- The columns with their final weights. -/
noncomputable def weighted (cols : List (List ℝ × List ℝ)) (ws : List ℝ) : List (List ℝ × List ℝ × ℝ) :=
  List.zipWith (fun c w => (c.1, c.2, weight c.1 c.2 w)) cols ws

/-- The square of one weighted difference. -/
noncomputable def sqTerm (j k : Nat) (c : List ℝ × List ℝ × ℝ) : ℝ :=
  ((c.1.getD j 0 - c.2.1.getD k 0) * c.2.2) ^ 2

/-- `sum(diff*diff,axis=2)` for the fiducial point `j` and the object `k`, phot.py 1333. -/
noncomputable def sumSq (cs : List (List ℝ × List ℝ × ℝ)) (j k : Nat) : ℝ := (cs.map (sqTerm j k)).sum

/-- `min(sepsq,axis=1)`, phot.py 1334. -/
noncomputable def cmdSq (cs : List (List ℝ × List ℝ × ℝ)) (nfid k : Nat) : ℝ :=
  lmin ((List.range nfid).map (fun j => sumSq cs j k))

/-- The squared distance from the centre, phot.py 1336-1337. -/
noncomputable def locSq (locs : List (List ℝ)) (cen : List ℝ) (k : Nat) : ℝ :=
  (List.zipWith (fun row c => (row.getD k 0 - c) ^ 2) locs cen).sum

/-- The location term: only if the weight is neither None nor zero, phot.py 1335-1337. -/
noncomputable def locTerm (s : Cmd) (k : Nat) : ℝ :=
  match s.locw, s.locs with
  | some w, some l => if w = 0 then 0 else w * locSq l s.cen k
  | _, _ => 0

/-- `x**0.5`: not a number for negative `x`. -/
noncomputable def root (x : ℝ) : Option ℝ := if x < 0 then none else some (Real.sqrt x)

/-- All data rows of the columns, if none of them is NaN. -/
def complete : List (List ℝ × Option (List ℝ)) → Option (List (List ℝ × List ℝ))
  | [] => some []
  | (f, some d) :: r => (complete r).map ((f, d) :: ·)
  | (_, none) :: _ => none

open Classical in
/-- `_calculateOffsets()`, phot.py 1276-1338.  Without columns, or without fiducial points, `numpy.min` is called on an
empty array; so are `max` and `min` for negative weights without data. -/
noncomputable def calcOff (s : Cmd) : Except Err (List (Option ℝ)) :=
  match used s with
  | .error e => .error e
  | .ok l =>
    if l = [] ∨ s.nfid = 0 then .error .value
    else if s.nd = 0 ∧ (∃ w ∈ weightsOf s l.length, w < 0) then .error .value
    else match complete (l.map (column s)) with
      | none => .ok (List.replicate s.nd none)
      | some cols =>
        if ∃ p ∈ cols.zip (weightsOf s l.length), badWeight p.1.1 p.1.2 p.2 then .ok (List.replicate s.nd none)
        else .ok ((List.range s.nd).map (fun k =>
          root (cmdSq (weighted cols (weightsOf s l.length)) s.nfid k + locTerm s k)))

/-! ## The operations -/

/-- `data = {...}`, phot.py 1429-1461: the keys and rows in dictionary order; rows of bands that the fiducial does not have are
dropped, masked ones too.  (With no band in common the code goes on with `None` as the number of objects: not modelled.) -/
noncomputable def mapData (names : List String) (t : Table ℝ) : List (Option (List ℝ)) :=
  names.map (fun b => match look t b with
    | some e => if e.mask then some e.data else none
    | none => none)

/-- What every `setData` does at the end, phot.py 1471-1483: assigning `offsetbands` to itself keeps the selection and drops the
weights; the offsets, locations and names are dropped. -/
def afterData (s : Cmd) : Cmd := { s with offws := none, offsets := none, locs := none, dnames := none }

/-- `setData(mapping)` (`n` objects). -/
noncomputable def setDataMap (known : String → Bool) (specs : List Spec) (rows : List (List ℝ)) (n : Nat) (s : Cmd) : Except Err Cmd :=
  match toDicts known specs rows with
  | .error e => .error (errOf e)
  | .ok (t, _) =>
    let d := mapData s.names t
    if d.all Option.isNone then .error .unmodelled
    else .ok (afterData { s with data := some d, datamask := d.map Option.isSome, nd := n })

/-- `setData(sequence)`, phot.py 1463-1468 (a rectangular array with `n` columns). -/
def setDataSeq (rows : List (List ℝ)) (n : Nat) (s : Cmd) : Except Err Cmd :=
  if rows.length ≠ s.names.length then .error .value
  else .ok (afterData { s with data := some (rows.map some), datamask := rows.map (fun _ => true), nd := n })

/-- `locs = val`, phot.py 1489-1499 (a rectangular array with `n` columns, or None). -/
def setLocs (val : Option (List (List ℝ))) (n : Nat) (s : Cmd) : Except Err Cmd :=
  match val with
  | none => .ok { s with locs := none }
  | some arr =>
    if arr.length < 2 ∨ arr.length > 3 then .error .value
    else if n ≠ s.nd then .error .value
    else .ok { s with locs := some arr }

/-- `datanames = val`, phot.py 1508-1511. -/
def setNames (val : List String) (s : Cmd) : Except Err Cmd :=
  if val.length ≠ s.nd then .error .value else .ok { s with dnames := some val }

/-- `datanames`, phot.py 1503-1507. -/
def getNames (s : Cmd) : List String := s.dnames.getD ((List.range s.nd).map (fun i => toString (i + 1)))

/-- `datagroups = val`, phot.py 1518-1524. -/
def setGroups (val : Option (List Int)) (s : Cmd) : Except Err Cmd :=
  match val with
  | none => .ok { s with dgrp := none }
  | some g => if g.length ≠ s.nd then .error .value else .ok { s with dgrp := some g }

/-- `center = val`, phot.py 1534-1543. -/
noncomputable def setCen (val : Option (List ℝ)) (s : Cmd) : Except Err Cmd :=
  match val with
  | none => .ok { s with cen := [0, 0, 0] }
  | some [x, y] => .ok { s with cen := [x, y, 0] }
  | some [x, y, z] => .ok { s with cen := [x, y, z] }
  | some _ => .error .value

/-- An element given to `offsetbands`: a band name, a text `"b-c"`, a text with several `-`, an integer, a 2-tuple of names, or
anything else. -/
inductive Arg
  | name (b : String)
  | color (b c : String)
  | dashes
  | int (i : Int)
  | tuple (b c : String)
  | other
deriving DecidableEq, Repr

/-- `self._bandnames[i]` for an integer. -/
def nameAt (s : Cmd) (i : Int) : Except Err String :=
  let j : Int := if i < 0 then i + s.names.length else i
  if j < 0 then .error .index
  else match s.names[j.toNat]? with
    | some b => .ok b
    | none => .error .index

/-- One element of the value, phot.py 1559-1587 and 1590-1594: a tuple is added as two separate bands. -/
def argSel (s : Cmd) : Arg → Except Err (List Sel)
  | .name b => if s.names.contains b then .ok [.one b] else .error .value
  | .color b c => if s.names.contains b && s.names.contains c then .ok [.pair b c] else .error .value
  | .dashes => .error .value
  | .int i => match nameAt s i with
    | .ok b => .ok [.one b]
    | .error e => .error e
  | .tuple b c => if s.names.contains b && s.names.contains c then .ok [.one b, .one c] else .error .value
  | .other => .error .value

/-- All elements (the `ValueError`s of the first loop come before the `IndexError`s of the second; the model reports whichever comes
first in the list). -/
def argSels (s : Cmd) : List Arg → Except Err (List Sel)
  | [] => .ok []
  | a :: r => match argSel s a with
    | .error e => .error e
    | .ok x => match argSels s r with
      | .error e => .error e
      | .ok y => .ok (x ++ y)

/-- `offsetbands = val`, phot.py 1552-1601. -/
def setOffBands (val : Option (List Arg)) (s : Cmd) : Except Err Cmd :=
  match val with
  | none => .ok { s with offbands := none, offsets := none, offws := none }
  | some l => match argSels s l with
    | .error e => .error e
    | .ok x => .ok { s with offbands := some x, offsets := none, offws := none }

/-- `distmod = val`, phot.py 1641-1651 (and `distance`, which sets it). -/
def setDmod (val : ℝ) (s : Cmd) : Except Err Cmd := Except.ok { s with dmod := val, offsets := none }

/-- `offsetweights = val`, phot.py 1661-1668: None returns before the offsets are dropped, and without `offsetbands` the length of
`None` is asked for. -/
def setWs (val : Option (List ℝ)) (s : Cmd) : Except Err Cmd :=
  match val with
  | none => .ok { s with offws := none }
  | some w => match s.offbands with
    | none => if w.length ≠ s.names.length then .error .value else .error .type
    | some l => if w.length ≠ l.length then .error .value else .ok { s with offws := some w, offsets := none }

/-- `locweight = val`, phot.py 1686-1688. -/
def setLocW (val : Option ℝ) (s : Cmd) : Except Err Cmd := .ok { s with locw := val, offsets := none }

/-- `clearOffsets()`, phot.py 1620-1624. -/
def clear (s : Cmd) : Cmd := { s with offsets := none }

/-- `getOffsets()`, phot.py 1610-1618: what it returns, and the object afterwards. -/
noncomputable def getOffsets (s : Cmd) : Except Err (List (Option ℝ)) × Cmd :=
  match s.data with
  | none => (.error .value, s)
  | some _ => match s.offsets with
    | some o => (.ok o, s)
    | none => match calcOff s with
      | .ok o => (.ok o, { s with offsets := some o })
      | .error e => (.error e, s)

/-- One step of the user. -/
inductive Op
  | dataMap (known : String → Bool) (specs : List Spec) (rows : List (List ℝ)) (n : Nat)
  | dataSeq (rows : List (List ℝ)) (n : Nat)
  | locs (val : Option (List (List ℝ))) (n : Nat)
  | names (val : List String)
  | groups (val : Option (List Int))
  | center (val : Option (List ℝ))
  | offsetbands (val : Option (List Arg))
  | distmod (val : ℝ)
  | offsetweights (val : Option (List ℝ))
  | locweight (val : Option ℝ)
  | clearOffsets
  | getOffsets

/-- The object after a call that may have raised: no setter changes anything before it raises. -/
def orElse (s : Cmd) : Except Err Cmd → Cmd
  | .ok t => t
  | .error _ => s

/-- The object after one step. -/
noncomputable def step (s : Cmd) : Op → Cmd
  | .dataMap k sp r n => orElse s (setDataMap k sp r n s)
  | .dataSeq r n => orElse s (setDataSeq r n s)
  | .locs v n => orElse s (setLocs v n s)
  | .names v => orElse s (setNames v s)
  | .groups v => orElse s (setGroups v s)
  | .center v => orElse s (setCen v s)
  | .offsetbands v => orElse s (setOffBands v s)
  | .distmod v => orElse s (setDmod v s)
  | .offsetweights v => orElse s (setWs v s)
  | .locweight v => orElse s (setLocW v s)
  | .clearOffsets => clear s
  | .getOffsets => (getOffsets s).2

noncomputable def run (s : Cmd) (h : List Op) : Cmd := h.foldl step s

end Verif.Cmd
