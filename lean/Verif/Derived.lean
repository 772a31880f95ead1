/-!
# Model of `DerivedValue` and `DependentSource` (astropysics/objcat.py:1990-2445)

Derived values are numbered `0 … n-1` and exist from the start (an unread derived value has no effect, so the moment of its
creation is immaterial).  Fields are numbered; a field is the list of its values, the first being current
(all `Field` mutators, modelled in `Verif.Field`, replace this list and notify).
Simplifications: all weak references stay alive; the catalog tree in which string links are located does not change;
observed values carry no error bars (so the error estimate makes no further calls of the function).
-/

namespace Verif.Derived

/-- A value: Python's None or a number. -/
abbrev PV := Option Int

/-- Exceptions. `other` stands for one that `value` does not catch (astropysics/objcat.py:2190: KeyError, ZeroDivisionError, …). -/
inductive Exc
  | cycle | index | value | attribute | func | other | fuel
deriving DecidableEq, Repr

/-- A link of a derived value: an explicit `Field`, or a locator string with the field it leads to (if any)
(astropysics/objcat.py:2296-2313, 2337-2385). -/
inductive Link
  | field (g : Nat)
  | named (target : Option Nat)
deriving DecidableEq, Repr

/-- The field a link denotes. -/
def Link.target : Link → Option Nat
  | .field g => some g
  | .named t => t

/-- An exception raised by the user's function: one of the listed (ValueError, IndexError, CycleError, AttributeError,
TypeError) or any other (astropysics/objcat.py:2190). -/
inductive FnExc
  | listed | unlisted
deriving DecidableEq, Repr

/-- As seen by `value`. -/
def FnExc.toExc : FnExc → Exc
  | .listed => .func
  | .unlisted => .other

/-- What does not change: number of derived values, their links, functions, and whether they have a `sourcenode`. -/
structure Config where
  n : Nat
  links : Nat → List Link
  fn : Nat → List PV → Except FnExc PV
  hasNode : Nat → Bool

/-- A `FieldValue` in a field: an observed value or a derived one. -/
inductive Cell
  | base (v : PV)
  | derived (d : Nat)
deriving DecidableEq, Repr

/-- The mutable state: field contents; `_fieldwr`, `depfieldrefs`, `_valid`, `_value` of each derived value; the notifiers
registered with each field (as the derived values they belong to). -/
structure State where
  cells : Nat → List Cell
  home : Nat → Option Nat
  refs : Nat → List (Option Nat)
  notif : Nat → List Nat
  valid : Nat → Bool
  cache : Nat → PV

/-- Function update. -/
def upd {α : Type} (f : Nat → α) (i : Nat) (x : α) : Nat → α := fun j => if j = i then x else f j

/-- `failedvalueaction` (astropysics/objcat.py:2004-2023). -/
inductive Mode
  | raise | skip | ignore
deriving DecidableEq, Repr

/-- References right after construction (astropysics/objcat.py:2296-2313). -/
def Link.initRef : Link → Option Nat
  | .field g => some g
  | .named _ => none

/-- Initial state: explicitly given fields know their dependents (astropysics/objcat.py:2303-2307). -/
def init (c : Config) : State where
  cells := fun _ => []
  home := fun _ => none
  refs := fun d => (c.links d).map Link.initRef
  notif := fun g => (List.range c.n).filter (fun d => decide (some g ∈ (c.links d).map Link.initRef))
  valid := fun _ => false
  cache := fun _ => none

/-- `populateFieldRefs` with a pathnode (astropysics/objcat.py:2387-2414), from link number `i` on: locates what is not
linked yet and registers the notifier; stops at the first string that cannot be located. -/
def populate (d : Nat) : State → Nat → List Link → State × Except Exc Unit
  | st, _, [] => (st, .ok ())
  | st, i, l :: ls =>
    match (st.refs d)[i]? with
    | some (some _) => populate d st (i + 1) ls
    | _ =>
      match l.target with
      | none => (st, .error .attribute)
      | some g =>
        populate d { st with
          refs := upd st.refs d ((st.refs d).set i (some g))
          notif := upd st.notif g (st.notif g ++ [d]) } (i + 1) ls

/-- Evaluates all of a field's values until one raises: `hasattr(fi,'errors')` (astropysics/objcat.py:2432,
1482-1484), whose exception is swallowed. Returns whether it succeeded. -/
def probe (ev : State → Nat → State × Except Exc PV) : State → List Cell → State × Bool
  | st, [] => (st, true)
  | st, .base _ :: cs => probe ev st cs
  | st, .derived d :: cs =>
    match ev st d with
    | (st1, .ok _) => probe ev st1 cs
    | (st1, .error _) => (st1, false)

/-- `fi()`: the current value (astropysics/objcat.py:1164, 1434-1438). -/
def call (ev : State → Nat → State × Except Exc PV) (st : State) (g : Nat) : State × Except Exc PV :=
  match st.cells g with
  | [] => (st, .error .index)
  | .base v :: _ => (st, .ok v)
  | .derived d :: _ => ev st d

/-- One dependency in `getDeps(geterrs=True)` (astropysics/objcat.py:2430-2441): if `fi.errors` exists the current
error is computed first, which evaluates the current value. -/
def dep (ev : State → Nat → State × Except Exc PV) (st : State) (g : Nat) : State × Except Exc PV :=
  match probe ev st (st.cells g) with
  | (st1, false) => call ev st1 g
  | (st1, true) =>
    match call ev st1 g with
    | (st2, .error e) => (st2, .error e)
    | (st2, .ok _) => call ev st2 g

/-- All dependencies in order. -/
def depsList (ev : State → Nat → State × Except Exc PV) : State → List Nat → State × Except Exc (List PV)
  | st, [] => (st, .ok [])
  | st, g :: gs =>
    match dep ev st g with
    | (st1, .error e) => (st1, .error e)
    | (st1, .ok v) =>
      match depsList ev st1 gs with
      | (st2, .error e) => (st2, .error e)
      | (st2, .ok vs) => (st2, .ok (v :: vs))

/-- The linking step of `getDeps` (astropysics/objcat.py:2425-2427, 2387-2414): the fields, located if necessary. -/
def link (c : Config) (st : State) (d : Nat) : State × Except Exc (List Nat) :=
  if none ∈ st.refs d then
    if c.hasNode d then
      match populate d st 0 (c.links d) with
      | (st1, .error e) => (st1, .error e)
      | (st1, .ok _) => (st1, .ok ((st1.refs d).filterMap id))
    else (st, .error .value)
  else (st, .ok ((st.refs d).filterMap id))

/-- Exceptions handled by `value` according to the mode (astropysics/objcat.py:2190). -/
def Exc.caught : Exc → Bool
  | .other => false
  | .fuel => false
  | _ => true

/-- The exception handler of `value` (astropysics/objcat.py:2190-2233); for a cycle without a `sourcenode` the handler
itself fails, `DerivedValue` having no `idstr` (astropysics/objcat.py:2191-2195). -/
def handle (c : Config) (mode : Mode) (st : State) (d : Nat) (e : Exc) : State × Except Exc PV :=
  if e = .cycle ∧ c.hasNode d = false then (st, .error .attribute)
  else if e.caught then
    match mode with
    | .raise => (st, .error e)
    | .skip => ({ st with cache := upd st.cache d none, valid := upd st.valid d false }, .ok none)
    | .ignore => ({ st with cache := upd st.cache d none, valid := upd st.valid d true }, .ok none)
  else (st, .error e)

/-- The body of `DerivedValue.value` for an invalid value (astropysics/objcat.py:2161-2233) with `getDeps`
(astropysics/objcat.py:2416-2445); `ev` evaluates dependencies with this value pushed on the cycle stack. -/
def compute (c : Config) (mode : Mode) (ev : State → Nat → State × Except Exc PV) (stack : List Nat)
    (st : State) (d : Nat) : State × Except Exc PV :=
  if d ∈ stack then handle c mode st d .cycle
  else
    match link c st d with
    | (st1, .error e) => handle c mode st1 d e
    | (st1, .ok gs) =>
      match depsList ev st1 gs with
      | (st2, .error e) => handle c mode st2 d e
      | (st2, .ok vs) =>
        match c.fn d vs with
        | .error e => handle c mode st2 d e.toExc
        | .ok v => ({ st2 with cache := upd st2.cache d v, valid := upd st2.valid d true }, .ok v)

/-- `DerivedValue.value` (astropysics/objcat.py:2156-2234).  Recursion is on fuel; `read` supplies `n+1`, which always
suffices because the cycle stack holds distinct derived values (theorem `read_terminates`). -/
def value (c : Config) (mode : Mode) : Nat → List Nat → State → Nat → State × Except Exc PV
  | 0, _, st, _ => (st, .error .fuel)
  | fuel + 1, stack, st, d =>
    if st.valid d then (st, .ok (st.cache d))
    else compute c mode (value c mode fuel (d :: stack)) stack st d

/-- Reading `d.value`. -/
def read (c : Config) (mode : Mode) (st : State) (d : Nat) : State × Except Exc PV := value c mode (c.n + 1) [] st d

/-- `invalidate` and the field's `notifyValueChange` (astropysics/objcat.py:2123-2154, 1261-1281): marks the value
invalid and invalidates all that depend on its field; on a cycle it only warns, except that without a `sourcenode` the
warning itself fails (`idstr`). An exception stops everything. -/
def notifyAll (inv : State → Nat → State × Except Exc Unit) : State → List Nat → State × Except Exc Unit
  | st, [] => (st, .ok ())
  | st, d :: ds =>
    match inv st d with
    | (st1, .error e) => (st1, .error e)
    | (st1, .ok _) => notifyAll inv st1 ds

/-- See `notifyAll`. -/
def invalidate (c : Config) : Nat → List Nat → State → Nat → State × Except Exc Unit
  | 0, _, st, _ => (st, .error .fuel)
  | fuel + 1, stack, st, d =>
    if d ∈ stack then
      if c.hasNode d then (st, .ok ()) else (st, .error .attribute)
    else
      let st1 := { st with valid := upd st.valid d false }
      match st.home d with
      | none => (st1, .ok ())
      | some g => notifyAll (invalidate c fuel (d :: stack)) st1 (st1.notif g)

/-- `Field.notifyValueChange` on field `g`. -/
def notifyField (c : Config) (st : State) (g : Nat) : State × Except Exc Unit :=
  notifyAll (invalidate c (c.n + 1) []) st (st.notif g)

/-- Whether a list of values may be put into field `g`: a derived value can live in one field only
(astropysics/objcat.py:1254-1257). -/
def placeable (c : Config) (st : State) (g : Nat) (cs : List Cell) : Bool :=
  cs.all (fun x => match x with
    | .base _ => true
    | .derived d => decide (d < c.n) && (st.home d == none || st.home d == some g))

/-- Public operations: any `Field` operation that makes `cs` the values of field `g`, with or without notification
(`Verif.Field`: the notification comes first); reading a derived value; the evaluation with failures skipped that
`checkType` makes (astropysics/objcat.py:2112-2119). -/
inductive Op
  | assign (g : Nat) (cs : List Cell) (notified : Bool)
  | read (d : Nat)
  | check (d : Nat)
deriving DecidableEq, Repr

/-- Puts the values in place. -/
def place (st : State) (g : Nat) (cs : List Cell) : State :=
  { st with
    cells := upd st.cells g cs
    home := fun d => if .derived d ∈ cs then some g else st.home d }

/-- One operation under class-wide `failedvalueaction = mode`. -/
def step (c : Config) (mode : Mode) (st : State) : Op → State × Except Exc PV
  | .assign g cs notified =>
    if placeable c st g cs then
      if notified then
        match notifyField c st g with
        | (st1, .ok _) => (place st1 g cs, .ok none)
        | (st1, .error e) => (st1, .error e)
      else (place st g cs, .ok none)
    else (st, .error .value)
  | .read d => if d < c.n then read c mode st d else (st, .error .other)
  | .check d => if d < c.n then read c .skip st d else (st, .error .other)

/-- A history. -/
def run (c : Config) (mode : Mode) (st : State) (ops : List Op) : State :=
  ops.foldl (fun st op => (step c mode st op).1) st

end Verif.Derived
