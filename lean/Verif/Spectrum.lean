import Mathlib.Algebra.Order.Field.Basic
import Mathlib.Data.List.Sort
import Mathlib.Tactic.FieldSimp
import Mathlib.Tactic.Ring
import Mathlib.Tactic.Linarith
import Mathlib.Tactic.Positivity

/-!
# Spectra and their units (astropysics/spec.py 74-560, 903-986, 1306-1365, 1694-1740)

`HasSpecUnits`, `Spectrum`, `FunctionSpectrum`, `KnownFeature`.

Modelling choices.

* Numbers are elements of a linearly ordered field `K` (doubles are idealised; a division by zero, which gives inf or
  nan in numpy, is excluded by the hypotheses of the theorems).
* A spectrum is one-dimensional: lists of numbers.  Arrays of different lengths raise ValueError when combined (numpy
  would broadcast an array of length one; not modelled).
* The physical constants `h`, `c`, `ergperev` are arbitrary positive numbers.
* Strings are lists of characters; `str.lower` is modelled for ASCII letters.
-/

namespace Verif.Spectrum

abbrev Str := List Char

/-- `str.lower()` (ASCII). -/
def lower (s : Str) : Str := s.map Char.toLower

/-- `_phystype`. -/
inductive Phys
  | wavelength | frequency | energy
deriving DecidableEq, Repr

/-- The exceptions of this module. -/
inductive Err
  | value | type | attribute | notImplemented
deriving DecidableEq, Repr

/-- The first part of the unit string. -/
def Phys.str : Phys → Str
  | .wavelength => "wavelength".toList
  | .frequency => "frequency".toList
  | .energy => "energy".toList

variable {K : Type} [Field K] [LinearOrder K] [IsStrictOrderedRing K]

/-- The physical constants used (constants.py). -/
structure Consts (K : Type) [Field K] [LinearOrder K] where
  h : K
  c : K
  ev : K
  hpos : 0 < h
  cpos : 0 < c
  evpos : 0 < ev

/-- `_phystype`, `_unit`, `_xscaling`. -/
structure Unit (K : Type) where
  phys : Phys
  name : Str
  scale : K

/-- `_getUnit`, spec.py 271-272. -/
def Unit.str (u : Unit K) : Str := u.phys.str ++ '-' :: u.name

/-- `strToUnit`, spec.py 117-166.  The argument is lowered before it is compared, but some of the words it is compared
with contain capital letters.  `val.split('-')` of the constants in the code is written out. -/
def strToUnit (k : Consts K) (s : Str) : Except Err (Unit K) :=
  let u := lower s
  if u ∈ ["wl".toList, "lambda".toList, "ang".toList, "angstroms".toList, "wavelength".toList, "wavelength-angstrom".toList] then
    .ok ⟨.wavelength, "angstrom".toList, 1 / 10 ^ 8⟩
  else if u ∈ ["nm".toList, "wavelength-nm".toList] then .ok ⟨.wavelength, "nm".toList, 1 / 10 ^ 7⟩
  else if u ∈ ["microns".toList, "um".toList, "wavelength-micron".toList] then .ok ⟨.wavelength, "micron".toList, 1 / 10 ^ 4⟩
  else if u ∈ ["m".toList, "wavelength-m".toList] then .ok ⟨.wavelength, "m".toList, 10 ^ 2⟩
  else if u ∈ ["cm".toList, "wavelength-cm".toList] then .ok ⟨.wavelength, "cm".toList, 1⟩
  else if u ∈ ["f".toList, "nu".toList, "hz".toList, "frequency".toList, "frequency-hz".toList] then .ok ⟨.frequency, "Hz".toList, 1⟩
  else if u ∈ ["thz".toList, "frequency-THz".toList] then .ok ⟨.frequency, "THz".toList, 10 ^ 12⟩
  else if u ∈ ["e".toList, "en".toList, "energy".toList, "energy-eV".toList] then .ok ⟨.energy, "eV".toList, k.ev⟩
  else if u ∈ ["erg".toList, "energy-erg".toList] then .ok ⟨.energy, "erg".toList, 1⟩
  else if u ∈ ["J".toList, "energy-J".toList] then .ok ⟨.energy, "J".toList, 1 / 10 ^ 7⟩
  else .error .value

/-- `__convertUnitType`, spec.py 212-253: one sample in cgs units. -/
def convertUnitType (k : Consts K) (x f : K) : Phys → Phys → K × K
  | .wavelength, .wavelength => (x, f)
  | .frequency, .wavelength => (k.c / x, x * x * f / k.c)
  | .energy, .wavelength => (k.h * k.c / x, x * x * f / k.h / k.c)
  | .wavelength, .frequency => (k.c / x, x * x * f / k.c)
  | .frequency, .frequency => (x, f)
  | .energy, .frequency => (x / k.h, k.h * f)
  | .wavelength, .energy => (k.h * k.c / x, x * x * f / k.h / k.c)
  | .frequency, .energy => (k.h * x, f / k.h)
  | .energy, .energy => (x, f)

/-- `__xtrans`, spec.py 255-257. -/
def xtrans (k : Consts K) (old new : Unit K) (x : K) : K :=
  (convertUnitType k (x * old.scale) 0 old.phys new.phys).1 / new.scale

/-- `__xitrans`, spec.py 259-261. -/
def xitrans (k : Consts K) (old new : Unit K) (x : K) : K :=
  (convertUnitType k (x * new.scale) 0 new.phys old.phys).1 / old.scale

/-- `__xftrans` and `__xfinplace`, spec.py 263-275, for one sample. -/
def xftrans (k : Consts K) (old new : Unit K) (x f : K) : K × K :=
  ((convertUnitType k (x * old.scale) (f / old.scale) old.phys new.phys).1 / new.scale,
   (convertUnitType k (x * old.scale) (f / old.scale) old.phys new.phys).2 * new.scale)

/-- `continuum`: None, an array, or a callable. -/
inductive Cont (K : Type)
  | none
  | arr (v : List K)
  | model (f : K → K)

/-- `_contop`. -/
inductive ContOp
  | subtraction | normalize
deriving DecidableEq, Repr

/-- A `Spectrum` (spec.py 298-371); `contop = none` if the attribute does not exist. -/
structure Spec (K : Type) where
  unit : Unit K
  x : List K
  flux : List K
  err : List K
  cont : Cont K := .none
  contop : Option ContOp := none
  z : K

/-- A call: the spectrum afterwards and the exception raised, if any. -/
abbrev Res (K : Type) := Spec K × Option Err

/-- `err[err<0] = -1*err[err<0]`. -/
def absErr (e : K) : K := if e < 0 then -1 * e else e

/-- `np.argsort` followed by indexing the three arrays (spec.py 354-358); equal x values are kept in order (in numpy
their order is unspecified). -/
def sortSamples (l : List (K × K × K)) : List (K × K × K) := l.mergeSort (fun a b => decide (a.1 ≤ b.1))

/-- The constructor, spec.py 305-371, for arrays; `err` is already `|err|` or `ivar**-0.5` (`errOf`): if `ivar` is given it
is used and `err` is ignored, the branch that should reject both is unreachable. -/
def construct (k : Consts K) (isqrt : K → K) (x flux : List K) (err ivar : Option (List K)) (unit : Str) (sort : Bool) :
    Except Err (Spec K) :=
  if x.length ≠ flux.length then .error .value
  else
    let e := match ivar, err with
      | none, none => flux.map (fun _ => 0)
      | some iv, _ => iv.map isqrt
      | none, some e => e.map absErr
    if e.length ≠ flux.length then .error .value
    else match strToUnit k unit with
      | .error er => .error er
      | .ok u =>
        let s := if sort then sortSamples (x.zip (flux.zip e)) else x.zip (flux.zip e)
        .ok { unit := u, x := s.map (·.1), flux := s.map (·.2.1), err := s.map (·.2.2), z := 0 }

/-- `Spectrum._applyUnits`, spec.py 414-431; `xftrans` of two arrays raises ValueError if their lengths differ. -/
def applyUnits (k : Consts K) (s : Spec K) (old new : Unit K) : Except Err (Spec K) :=
  if s.contop.isSome then .error .value
  else
    let cont : Except Err (Cont K) := match s.cont with
      | .none => .ok .none
      | .model _ => .ok .none
      | .arr v => if s.x.length = v.length then .ok (.arr (List.zipWith (fun x y => (xftrans k old new x y).2) s.x v))
                  else .error .value
    match cont with
    | .error e => .error e
    | .ok cont =>
      .ok { s with
        unit := new, cont := cont,
        x := List.zipWith (fun x y => (xftrans k old new x y).1) s.x s.flux,
        flux := List.zipWith (fun x y => (xftrans k old new x y).2) s.x s.flux,
        err := List.zipWith (fun x y => (xftrans k old new x y).2) s.x s.err }

/-- `_setUnit`, spec.py 273-294. -/
def setUnit (k : Consts K) (s : Spec K) (str : Str) : Res K :=
  match strToUnit k str with
  | .error e => (s, some e)
  | .ok u =>
    if u.name = s.unit.name ∧ u.scale = s.unit.scale then (s, none)
    else match applyUnits k s s.unit u with
      | .error e => (s, some e)
      | .ok s' => (s', none)

/-- `getUnitFlux(units, err=True)`, spec.py 519-543: result and the spectrum afterwards.  The `finally` clause assigns the
old unit string; its exception replaces any other outcome. -/
def getUnitFlux (k : Consts K) (s : Spec K) (str : Str) : Except Err (List K × List K × List K) × Spec K :=
  let old := s.unit.str
  let r : Except Err (List K × List K × List K) := match (setUnit k s str).2 with
    | some e => .error e
    | none => .ok ((setUnit k s str).1.x, (setUnit k s str).1.flux, (setUnit k s str).1.err)
  match setUnit k (setUnit k s str).1 old with
  | (s2, some e) => (.error e, s2)
  | (s2, none) => (r, s2)

/-- `nflux`, spec.py 453-461: the `finally` clause assigns a new attribute `type`, not the unit. -/
def nflux (k : Consts K) (s : Spec K) : Except Err (List K) × Spec K :=
  match setUnit k s "hz".toList with
  | (s1, some e) => (.error e, s1)
  | (s1, none) => (.ok (List.zipWith (fun f x => f / k.h / x) s1.flux s1.x), s1)

/-- The samples of the continuum (spec.py 907-915). -/
def contSamples (s : Spec K) : Except Err (List K) :=
  match s.cont with
  | .none => .error .value
  | .model f => .ok (s.x.map f)
  | .arr v => if v.length = s.flux.length then .ok v else .error .value

/-- `subtractContinuum`, spec.py 903-919. -/
def subtractContinuum (s : Spec K) : Res K :=
  if s.contop.isSome then (s, some .value)
  else match contSamples s with
    | .error e => (s, some e)
    | .ok c => ({ s with flux := List.zipWith (· - ·) s.flux c, contop := some .subtraction }, none)

/-- `normalizeByContinuum`, spec.py 921-937. -/
def normalizeByContinuum (s : Spec K) : Res K :=
  if s.contop.isSome then (s, some .value)
  else match contSamples s with
    | .error e => (s, some e)
    | .ok c => ({ s with flux := List.zipWith (· / ·) s.flux c, contop := some .normalize }, none)

/-- `revertContinuum`, spec.py 965-986. -/
def revertContinuum (s : Spec K) : Res K :=
  match contSamples s with
  | .error e => (s, some e)
  | .ok c => match s.contop with
    | none => (s, some .value)
    | some .subtraction => ({ s with flux := List.zipWith (· + ·) s.flux c, contop := none }, none)
    | some .normalize => ({ s with flux := List.zipWith (· * ·) s.flux c, contop := none }, none)

/-- `_setFlux`, spec.py 446-450; `_setErr` 473-476; `_setX` 486-490. -/
def setFlux (s : Spec K) (v : List K) : Res K := if v.length ≠ s.flux.length then (s, some .value) else ({ s with flux := v }, none)
def setErr (s : Spec K) (v : List K) : Res K := if v.length ≠ s.err.length then (s, some .value) else ({ s with err := v }, none)
def setX (s : Spec K) (v : List K) : Res K := if v.length ≠ s.flux.length then (s, some .value) else ({ s with x := v }, none)

/-- `_setIvar`, spec.py 480-483. -/
def setIvar (isqrt : K → K) (s : Spec K) (v : List K) : Res K :=
  if v.length ≠ s.flux.length then (s, some .value) else ({ s with err := v.map isqrt }, none)

/-- `x0`, spec.py 493-497. -/
def x0 (s : Spec K) : List K := s.x.map (· / (s.z + 1))
def setX0 (s : Spec K) (v : List K) : Res K :=
  match setX s v with
  | (s', none) => ({ s' with x := s'.x.map (· * (s'.z + 1)) }, none)
  | (s', some e) => (s', some e)

/-- `resample(newx, 'linear', replace=True)`, spec.py 644-688; `interp` stands for `np.interp`, which gives as many numbers
as it is given positions. -/
def resample (interp : List K → List K → K → K) (s : Spec K) (newx : List K) : Res K :=
  if newx.length ≠ s.x.length then (s, some .value)
  else ({ s with x := newx, flux := newx.map (interp s.x s.flux), err := newx.map (interp s.x s.err) }, none)

/-- The calls on a spectrum.  `cont` is an assignment to the plain attribute `continuum` (`fitContinuum` ends with one, spec.py
900-901), `z` to the attribute `z`. -/
inductive Op (K : Type)
  | unit (s : Str)
  | getUnitFlux (s : Str)
  | nflux
  | subtract
  | normalize
  | revert
  | flux (v : List K)
  | err (v : List K)
  | x (v : List K)
  | x0 (v : List K)
  | ivar (v : List K)
  | resample (v : List K)
  | cont (c : Cont K)
  | z (v : K)

def exec (k : Consts K) (isqrt : K → K) (interp : List K → List K → K → K) (s : Spec K) : Op K → Spec K
  | .unit u => (setUnit k s u).1
  | .getUnitFlux u => (getUnitFlux k s u).2
  | .nflux => (nflux k s).2
  | .subtract => (subtractContinuum s).1
  | .normalize => (normalizeByContinuum s).1
  | .revert => (revertContinuum s).1
  | .flux v => (setFlux s v).1
  | .err v => (setErr s v).1
  | .x v => (setX s v).1
  | .x0 v => (setX0 s v).1
  | .ivar v => (setIvar isqrt s v).1
  | .resample v => (resample interp s v).1
  | .cont c => { s with cont := c }
  | .z v => { s with z := v }

def run (k : Consts K) (isqrt : K → K) (interp : List K → List K → K → K) (s : Spec K) (ops : List (Op K)) : Spec K :=
  ops.foldl (exec k isqrt interp) s

/-! ## FunctionSpectrum -/

/-- A `FunctionSpectrum` without errors and continuum (spec.py 1306-1365).  The stored transformations are bound methods of
the object: they read the units of the *last* change (`last`), whenever they are called; so only their number matters. -/
structure FSpec (K : Type) where
  fluxf : K → K
  unit : Unit K
  x : List K
  flux : List K
  hist : List Str                       -- `_unithist`; the stored transformations have the same number
  last : Option (Unit K × Unit K)       -- old and new unit of the last change

/-- spec.py 1312-1325. -/
def FSpec.construct (k : Consts K) (xi : List K) (fluxf : K → K) (unit : Str) : Except Err (FSpec K) :=
  match strToUnit k unit with
  | .error e => .error e
  | .ok u =>
    let s := (xi.zip (xi.map fluxf)).mergeSort (fun a b => decide (a.1 ≤ b.1))
    .ok { fluxf := fluxf, unit := u, x := s.map (·.1), flux := s.map (·.2), hist := [], last := none }

/-- `_setUnit` with `FunctionSpectrum._applyUnits`, spec.py 273-294, 1355-1365. -/
def FSpec.setUnit (k : Consts K) (s : FSpec K) (str : Str) : FSpec K × Option Err :=
  match strToUnit k str with
  | .error e => (s, some e)
  | .ok u =>
    if u.name = s.unit.name ∧ u.scale = s.unit.scale then (s, none)
    else
      let hist := if u.str ∈ s.hist then s.hist.take (s.hist.idxOf u.str + 1) else s.hist ++ [u.str]
      ({ s with unit := u, hist := hist, last := some (s.unit, u),
                x := List.zipWith (fun x y => (xftrans k s.unit u x y).1) s.x s.flux,
                flux := List.zipWith (fun x y => (xftrans k s.unit u x y).2) s.x s.flux }, none)

/-- `n` times the same function. -/
def times {α : Type} (f : α → α) : Nat → α → α
  | 0, a => a
  | n + 1, a => times f n (f a)

/-- `_setX`, spec.py 1327-1341. -/
def FSpec.setX (k : Consts K) (s : FSpec K) (v : List K) : FSpec K :=
  let sample (x : K) : K := match s.last with
    | none => s.fluxf x
    | some (o, n) =>
      let x' := times (xitrans k o n) s.hist.length x
      (times (fun p : K × K => xftrans k o n p.1 p.2) s.hist.length (x', s.fluxf x')).2
  { s with x := v, flux := v.map sample }

end Verif.Spectrum
