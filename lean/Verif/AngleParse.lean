import Verif.Angle

/-!
# Angles from strings (astropysics/coords/coordsys.py 105-256) (C169)

`AngularCoordinate.__init__` with its two regular expressions.  A regular expression is a function that gives all its matches at the
beginning of a text in the order in which Python's engine tries them; the result of `match` is the first.  `float` of a decimal numeral
is its value.
-/

namespace Verif.AngleParse

open Verif.Angle

abbrev Text := List Char

/-- A pattern: the captured value and what is left, in the order of preference. -/
abbrev Pat (α : Type) := Text → List (α × Text)

/-- `str.strip()` for ASCII. -/
def isSpace (c : Char) : Bool := c = ' ' || c = '\t' || c = '\n' || c = '\r' || c = '\x0b' || c = '\x0c'

/-- `inpt.strip()`. -/
def strip (s : Text) : Text := ((s.dropWhile isSpace).reverse.dropWhile isSpace).reverse

/-! ## The patterns -/

/-- `\d*`, longest first. -/
def starDigits : Pat Text := fun s =>
  let n := (s.takeWhile Char.isDigit).length
  (List.range (n + 1)).map fun k => (s.take (n - k), s.drop (n - k))

/-- `\d+`, longest first. -/
def plusDigits : Pat Text := fun s =>
  let n := (s.takeWhile Char.isDigit).length
  (List.range n).map fun k => (s.take (n - k), s.drop (n - k))

/-- The fraction `[.]\d*` after the digits `d`. -/
def fraction (d : Text) : Pat Text := fun r =>
  match r with
  | '.' :: r' => (starDigits r').map fun x => (d ++ '.' :: x.1, x.2)
  | _ => []

/-- `\d+(?:[.]\d*)?`. -/
def num : Pat Text := fun s => (plusDigits s).flatMap fun x => fraction x.1 x.2 ++ [(x.1, x.2)]

/-- A literal. -/
def lit (t : Text) : Pat Text := fun s => if t.isPrefixOf s then [(t, s.drop t.length)] else []

/-- `$`; a stripped text does not end in a newline. -/
def atEnd : Pat Text := fun s => if s = [] then [([], [])] else []

/-- Alternatives. -/
def alt {α : Type} (l : List (Pat α)) : Pat α := fun s => l.flatMap fun p => p s

/-- `(...)?`. -/
def opt {α : Type} (p : Pat α) : Pat (Option α) := fun s => ((p s).map fun x => (some x.1, x.2)) ++ [(none, s)]

/-- `p` followed by `q`. -/
def seq {α β : Type} (p : Pat α) (q : Pat β) : Pat (α × β) := fun s =>
  (p s).flatMap fun x => (q x.2).map fun y => ((x.1, y.1), y.2)

/-- `[+-]`. -/
def signChar : Pat Char := fun s =>
  match s with
  | c :: r => if c = '+' ∨ c = '-' then [(c, r)] else []
  | [] => []

/-- `\d+:\d+[.]?\d*$`: whether it matches. -/
def look (s : Text) : Bool :=
  (plusDigits s).any fun x => (lit ":".toList x.2).any fun y => (plusDigits y.2).any fun z =>
    ((lit ".".toList z.2).any fun w => (starDigits w.2).any fun v => v.2 == []) || (starDigits z.2).any fun v => v.2 == []

/-- `:(?=\d+:\d+[.]?\d*$)`. -/
def colon : Pat Text := fun s => (lit ":".toList s).filter fun x => look x.2

/-- `hours|h|degrees|d|radians|rads|rad|r| |:(?=\d+:\d+[.]?\d*$)`. -/
def mark1 : Pat Text := alt [lit "hours".toList, lit "h".toList, lit "degrees".toList, lit "d".toList, lit "radians".toList, lit "rads".toList,
  lit "rad".toList, lit "r".toList, lit " ".toList, colon]

/-- `m|\'|[:]| `. -/
def mark2 : Pat Text := alt [lit "m".toList, lit "'".toList, lit ":".toList, lit " ".toList]

/-- `s|"|$`. -/
def mark3 : Pat Text := alt [lit "s".toList, lit "\"".toList, atEnd]

/-- What the groups captured. -/
structure Groups where
  first : Option (Option Char × Text × Text)
  second : Option (Text × Text)
  third : Option (Text × Text)
  deriving DecidableEq

/-- `__acregex`, coordsys.py 109. -/
def acregex : Pat Groups := fun s =>
  ((seq (opt (seq (opt signChar) (seq num mark1))) (seq (opt (seq num mark2)) (opt (seq num mark3)))) s).flatMap fun x =>
    (atEnd x.2).map fun _ => (⟨x.1.1, x.1.2.1, x.1.2.2⟩, [])

/-- `__acregex.match(s)`. -/
def acMatch (s : Text) : Option Groups := (acregex s).head?.map Prod.fst

/-- `__decregex.match(s)`, coordsys.py 111: sign and numeral. -/
def decMatch (s : Text) : Option (Option Char × Text) :=
  ((seq (opt signChar) num s).flatMap fun x => (atEnd x.2).map fun _ => x.1).head?

/-! ## Values -/

/-- The value of digits. -/
def natVal (t : Text) : ℕ := t.foldl (fun n c => 10 * n + (c.toNat - 48)) 0

/-- `float` of a numeral: the digits before the point and those after it. -/
noncomputable def numVal (t : Text) : ℝ :=
  natVal (t.takeWhile Char.isDigit) + natVal ((t.dropWhile Char.isDigit).drop 1) / 10 ^ ((t.dropWhile Char.isDigit).drop 1).length

/-- The value of a part, 0 if it is missing. -/
noncomputable def partVal (t : Option Text) : ℝ :=
  match t with
  | none => 0
  | some t => numVal t

/-- `val`, coordsys.py 212-216. -/
noncomputable def groupsVal (g : Groups) : ℝ :=
  let v := partVal (g.first.map fun x => x.2.1) + partVal (g.second.map Prod.fst) / 60 + partVal (g.third.map Prod.fst) / 3600
  if (g.first.bind fun x => x.1) = some '-' then v * (-1) else v

/-- What is assigned: hours, degrees or radians. -/
inductive Unit'
  | hours | degrees | radians
  deriving DecidableEq

/-- The unit of the value, coordsys.py 217-241. -/
def groupsUnit (sghms : Option Bool) (radians : Bool) (g : Groups) : Unit' :=
  match g.first with
  | none => if radians then .radians else .degrees
  | some (sgn, _, mark) =>
    if mark = ":".toList ∨ mark = " ".toList then
      match sghms with
      | none => if sgn = none then .hours else .degrees
      | some true => .hours
      | some false => .degrees
    else if mark = "hours".toList ∨ mark = "h".toList then .hours
    else if mark = "degrees".toList ∨ mark = "d".toList then .degrees
    else .radians

/-- The value that is assigned, with its unit, coordsys.py 201-244: ValueError for a text of another form. -/
noncomputable def parse (sghms : Option Bool) (radians : Bool) (inpt : Text) : Except Err (ℝ × Unit') :=
  match decMatch (strip inpt) with
  | some (sgn, t) => .ok (if sgn = some '-' then -numVal t else numVal t, if radians then .radians else .degrees)
  | none => match acMatch (strip inpt) with
    | some g => .ok (groupsVal g, groupsUnit sghms radians g)
    | none => .error .value

/-- The argument of the constructor. -/
inductive Input
  | angle (a : AC)
  | none
  | text (t : Text)
  | triple (a b c : ℝ)
  | number (x : ℝ)

/-- A value in a unit, assigned to an object without range. -/
noncomputable def assign (v : ℝ) : Unit' → Res
  | .hours => setHours ⟨0, Option.none⟩ v
  | .degrees => setDegrees ⟨0, Option.none⟩ v
  | .radians => setRadians ⟨0, Option.none⟩ v

/-- An exception leaves no object. -/
noncomputable def finish (rng : RangeArg) (r : Res) : Except Err AC :=
  match r.2 with
  | some e => .error e
  | Option.none => match setRange r.1 rng with
    | (a, Option.none) => .ok a
    | (_, some e) => .error e

/-- `AngularCoordinate(inpt,sghms,range,radians)`, coordsys.py 189-256: a copy keeps its own range, whatever `range` says. -/
noncomputable def make (inpt : Input) (sghms : Option Bool) (rng : RangeArg) (radians : Bool) : Except Err AC :=
  match inpt with
  | .angle a => .ok a
  | .none => finish rng (⟨0, Option.none⟩, Option.none)
  | .text t => match parse sghms radians t with
    | .error e => .error e
    | .ok (v, u) => finish rng (assign v u)
  | .triple a b c => finish rng (if sghms = some true then setHms ⟨0, Option.none⟩ a b c else setDms ⟨0, Option.none⟩ a b c)
  | .number x => finish rng (if radians then ⟨x, Option.none⟩ else ⟨rad x, Option.none⟩, Option.none)

end Verif.AngleParse
