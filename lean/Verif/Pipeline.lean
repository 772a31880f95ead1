import Verif.PyList

/-!
# Model of astropysics/pipeline.py

Queues are `collections.deque`s written left to right: `appendleft` enqueues at the left end, `pop`
takes from the right end.  Elements are stateful objects with an identity and a class; what their
`plProcess`/`plInteract`/message handlers do is a parameter (`Beh`).

Simplifications: an element's methods act on the pipeline only through `resaveData` on their own
stage; a given message object is fed at most once (its `nprocessed` counter then belongs to the queued
item); queues do not alias.
-/

namespace Verif.Pipeline

open Verif

/-- Exceptions that can leave a pipeline call. `elem` is the element's own exception,
`interrupted` is a KeyboardInterrupt-like stop between two stage runs (it is how the fuel of the
`while` loops shows up). -/
inductive Exc
  | indexError | pipelineError | typeError | elem | interrupted
deriving DecidableEq, Repr

/-- What a message is addressed to: a specific object, or a class
(astropysics/pipeline.py:496-508, `PipelineMessage.__init__`). -/
inductive Target
  | obj (id : Nat)
  | cls (c : Nat)
deriving DecidableEq, Repr

/-- A message in flight (astropysics/pipeline.py:478-551): target, `nprocessed`, payload. -/
structure Msg (M : Type) where
  target : Target
  nprocessed : Nat
  payload : M
deriving DecidableEq, Repr

/-- A queue item: a datum, or an instance of `PipelineMessage`
(the `isinstance` test at astropysics/pipeline.py:224). -/
inductive Item (D M : Type)
  | data (d : D)
  | msg (m : Msg M)
deriving DecidableEq, Repr

/-- Result of a call to `plProcess`/`plInteract`: a value, `None`, or an exception
(astropysics/pipeline.py:421-476). -/
inductive Out (D : Type)
  | value (d : D)
  | none
  | raise
deriving DecidableEq, Repr

/-- A pipeline element: object identity, class, mutable state (astropysics/pipeline.py:396-476). -/
structure Elem (S : Type) where
  id : Nat
  cls : Nat
  st : S
deriving DecidableEq, Repr

/-- Behaviour of elements.  `accepts` is the `check_type(st._plintype,data)` test
(astropysics/pipeline.py:242); `process`/`interact` return the new element state, the data on which
`resaveData` was called (in call order), and the result; `deliver` is `deliverMessage`, with `false`
for an exception. -/
structure Beh (S D M : Type) where
  accepts : Elem S → D → Bool
  process : Elem S → D → S × List D × Out D
  interact : Elem S → D → S × List D × Out D
  deliver : M → Elem S → S × Bool

/-- The state of a `Pipeline` (astropysics/pipeline.py:109-111): elements, retry counters `_cycles`,
and `_datadeques` (the last one is the output queue). -/
structure Pipe (S D M : Type) where
  elems : List (Elem S)
  cycles : List Nat
  queues : List (List (Item D M))
deriving DecidableEq, Repr

variable {S D M : Type}

/-- `Pipeline.__init__` (astropysics/pipeline.py:90-111). -/
def mk (es : List (Elem S)) : Pipe S D M :=
  { elems := es
    cycles := es.map (fun _ => 0)
    queues := List.replicate (es.length + 1) [] }

/-- `addElement` (astropysics/pipeline.py:121-140); the TypeError for non-elements is ruled out by
typing. -/
def addElement (p : Pipe S D M) (k : Int) (e : Elem S) : Pipe S D M :=
  { elems := Py.insert p.elems k e
    cycles := Py.insert p.cycles k 0
    queues := Py.insert p.queues k [] }

/-- `removeElement` (astropysics/pipeline.py:142-161), statement by statement: `_elements.pop`,
`_datadeques.pop`, the `extend`+`rotate` of the next queue, `del _cycles[k]`.  Each failing
subscript leaves the mutations made so far. -/
def removeElement (p : Pipe S D M) (k : Int) (keepdata : Bool) : Pipe S D M × Except Exc (Elem S) :=
  match Py.pop? p.elems k with
  | none => (p, .error .indexError)
  | some (e, elems') =>
    let p1 := { p with elems := elems' }
    match Py.pop? p1.queues k with
    | none => (p1, .error .indexError)
    | some (data, queues') =>
      let p2 := { p1 with queues := queues' }
      let cont (p3 : Pipe S D M) : Pipe S D M × Except Exc (Elem S) :=
        match Py.pop? p3.cycles k with
        | none => (p3, .error .indexError)
        | some (_, cycles') => ({ p3 with cycles := cycles' }, .ok e)
      if keepdata then
        match Py.get? p2.queues k with
        | none => (p2, .error .indexError)
        | some _ =>
          let q3 := Py.update p2.queues k (fun q => Py.rotate (q ++ data) data.length)
          cont { p2 with queues := q3 }
      else cont p2

/-- `feed` (astropysics/pipeline.py:163-167). -/
def feed (p : Pipe S D M) (x : Item D M) : Pipe S D M :=
  { p with queues := Py.update p.queues 0 (Py.appendleft x) }

/-- `feedMany` (astropysics/pipeline.py:169-175). -/
def feedMany (p : Pipe S D M) : List (Item D M) → Pipe S D M
  | [] => p
  | x :: xs => feedMany (feed p x) xs

/-- `PipelineMessage.isTarget` (astropysics/pipeline.py:517-534). -/
inductive IsTarget
  | no | yes | continue
deriving DecidableEq, Repr

/-- `PipelineMessage.isTarget` (astropysics/pipeline.py:517-534). -/
def isTarget (m : Msg M) (e : Elem S) : IsTarget :=
  match m.target with
  | .cls c => if e.cls = c then .continue else .no
  | .obj i => if e.id = i then .yes else .no

/-- Return value of `processStage` (astropysics/pipeline.py:208-265): `False`, `True`, or one of the
message strings. -/
inductive StageRet
  | incomplete
  | complete
  | message (delivered passed : Bool)
deriving DecidableEq, Repr

/-- Set the state of the `k`-th element (elements mutate themselves). -/
def setSt (p : Pipe S D M) (k : Int) (s : S) : Pipe S D M :=
  { p with elems := Py.update p.elems k (fun e => { e with st := s }) }

/-- `self._datadeques[k].append(d)` for each resaved datum (astropysics/pipeline.py:445-452). -/
def resave (p : Pipe S D M) (k : Int) (ds : List D) : Pipe S D M :=
  { p with queues := Py.update p.queues k (fun q => q ++ ds.map .data) }

/-- `self._datadeques[k].appendleft(x)`. -/
def enqueue (p : Pipe S D M) (k : Int) (x : Item D M) : Pipe S D M :=
  { p with queues := Py.update p.queues k (Py.appendleft x) }

/-- The message branch of `processStage` (astropysics/pipeline.py:224-240); `p` is the pipeline after
the `pop`. -/
def stageMsg (B : Beh S D M) (p : Pipe S D M) (k : Int) (e : Elem S) (m : Msg M) :
    Pipe S D M × Except Exc StageRet :=
  let t := isTarget m e
  let pass (p : Pipe S D M) (m : Msg M) (deliv : Bool) : Pipe S D M × Except Exc StageRet :=
    if k = (p.elems.length : Int) - 1 then
      if m.nprocessed = 0 then (p, .error .pipelineError)
      else (p, .ok (.message deliv true))
    else (enqueue p (k + 1) (.msg m), .ok (.message deliv true))
  match t with
  | .no => pass p m false
  | _ =>
    let m' := { m with nprocessed := m.nprocessed + 1 }
    let (s', ok) := B.deliver m.payload e
    let p' := setSt p k s'
    if ok then
      if t = .continue then pass p' m' true
      else (p', .ok (.message true false))
    else (p', .error .elem)

/-- The data branch of `processStage` (astropysics/pipeline.py:241-265); `p` is the pipeline after
the `pop`. -/
def stageData (B : Beh S D M) (p : Pipe S D M) (k : Int) (e : Elem S) (d : D) :
    Pipe S D M × Except Exc StageRet :=
  if B.accepts e d then
    let finish (p : Pipe S D M) (y : D) : Pipe S D M × Except Exc StageRet :=
      let p := enqueue p (k + 1) (.data y)
      ({ p with cycles := Py.update p.cycles k (fun _ => 0) }, .ok .complete)
    let fail (p : Pipe S D M) : Pipe S D M × Except Exc StageRet :=
      ({ p with queues := Py.update p.queues k (Py.append (.data d)) }, .error .elem)
    let (s1, r1, o1) := B.process e d
    let p1 := resave (setSt p k s1) k r1
    match o1 with
    | .value y => finish p1 y
    | .raise => fail p1
    | .none =>
      let (s2, r2, o2) := B.interact { e with st := s1 } d
      let p2 := resave (setSt p1 k s2) k r2
      match o2 with
      | .value y => finish p2 y
      | .raise => fail p2
      | .none => ({ p2 with cycles := Py.update p2.cycles k (· + 1) }, .ok .incomplete)
  else (p, .error .typeError)

/-- `processStage` (astropysics/pipeline.py:208-265). -/
def processStage (B : Beh S D M) (p : Pipe S D M) (k : Int) : Pipe S D M × Except Exc StageRet :=
  match Py.get? p.elems k with
  | none => (p, .error .indexError)
  | some e =>
    match (Py.get? p.queues k).bind Py.popright with
    | none => (p, .error .indexError)
    | some (x, q') =>
      let p' := { p with queues := Py.update p.queues k (fun _ => q') }
      match x with
      | .msg m => stageMsg B p' k e m
      | .data d => stageData B p' k e d

/-- The `repeat` argument of `processToStage`: `False`/0, `True`, or a positive integer
(astropysics/pipeline.py:333-378). -/
inductive Repeat
  | off | on | limit (l : Nat)
deriving DecidableEq, Repr

/-- `repeat is not True and self._cycles[st] >= repeat` (astropysics/pipeline.py:368). -/
def Repeat.hit : Repeat → Nat → Bool
  | .limit l, c => l ≤ c
  | _, _ => false

/-- `self._cycles[k]` as read by the loops (0 when out of range; the callers only use stage numbers
for which `processStage` has just succeeded). -/
def cyc (p : Pipe S D M) (k : Nat) : Nat := (p.cycles[k]?).getD 0

/-- The inner `while self._cycles[st]` loop (astropysics/pipeline.py:367-370); the fuel running out
is an interrupt. -/
def retryLoop (B : Beh S D M) (hit : Nat → Bool) : Nat → Pipe S D M → Nat → List StageRet →
    Pipe S D M × Except Exc (List StageRet)
  | 0, p, _, _ => (p, .error .interrupted)
  | fuel + 1, p, st, acc =>
    if cyc p st = 0 then (p, .ok acc)
    else if hit (cyc p st) then (p, .error .pipelineError)
    else
      match processStage B p st with
      | (p', .error e) => (p', .error e)
      | (p', .ok r) => retryLoop B hit fuel p' st (acc ++ [r])

/-- The outer `while len(dd)>0` loop (astropysics/pipeline.py:365-370). -/
def drainLoop (B : Beh S D M) (rep : Repeat) : Nat → Pipe S D M → Nat → List StageRet →
    Pipe S D M × Except Exc (List StageRet)
  | 0, p, _, _ => (p, .error .interrupted)
  | fuel + 1, p, st, acc =>
    if ((p.queues[st]?).getD []).length = 0 then (p, .ok acc)
    else
      match processStage B p st with
      | (p', .error e) => (p', .error e)
      | (p', .ok _) =>
        match retryLoop B rep.hit fuel p' st acc with
        | (p'', .error e) => (p'', .error e)
        | (p'', .ok acc') => drainLoop B rep fuel p'' st acc'

/-- One iteration of the `for st in stages` loop (astropysics/pipeline.py:361-376). -/
def stageOnce (B : Beh S D M) (rep : Repeat) (fuel : Nat) (p : Pipe S D M) (st : Nat) :
    Pipe S D M × Except Exc (List StageRet) :=
  match p.queues[st]? with
  | none => (p, .error .indexError)
  | some q =>
    match rep with
    | .off =>
      if q.length > 0 then
        match processStage B p st with
        | (p', .error e) => (p', .error e)
        | (p', .ok r) => (p', .ok [r])
      else (p, .ok [.incomplete])
    | _ => drainLoop B rep fuel p st []

/-- The `for st in stages` loop (astropysics/pipeline.py:361-377). -/
def stagesLoop (B : Beh S D M) (rep : Repeat) (fuel : Nat) : Pipe S D M → List Nat →
    List (List StageRet) → Pipe S D M × Except Exc (List (List StageRet))
  | p, [], acc => (p, .ok acc)
  | p, st :: sts, acc =>
    match stageOnce B rep fuel p st with
    | (p', .error e) => (p', .error e)
    | (p', .ok r) => stagesLoop B rep fuel p' sts (acc ++ [r])

/-- `processToStage` (astropysics/pipeline.py:333-378).  With `repeat` off each result is the
singleton of the stage's return value. -/
def processToStage (B : Beh S D M) (fuel : Nat) (p : Pipe S D M) (k : Int) (rep : Repeat) :
    Pipe S D M × Except Exc (List (List StageRet)) :=
  let n : Int := if 0 ≤ k then k + 1 else (p.queues.length : Int) + k
  stagesLoop B rep fuel p (List.range n.toNat) []

/-- `process` (astropysics/pipeline.py:267-289). -/
def process (B : Beh S D M) (fuel : Nat) (p : Pipe S D M) (rep : Repeat) :
    Pipe S D M × Except Exc (List (List StageRet)) :=
  processToStage B fuel p (-1) rep

/-- The part of `extract` after the optional processing (astropysics/pipeline.py:198-206):
`if len(d) == 0: extractall = False`, then the whole queue reversed, or one `pop`. -/
def extractLast (p : Pipe S D M) (extractall : Bool) : Pipe S D M × Except Exc (List (Item D M)) :=
  match Py.get? p.queues (-1) with
  | none => (p, .error .indexError)
  | some d =>
    if extractall ∧ d.length ≠ 0 then
      ({ p with queues := Py.update p.queues (-1) (fun _ => []) }, .ok d.reverse)
    else
      match Py.popright d with
      | none => (p, .error .indexError)
      | some (x, d') => ({ p with queues := Py.update p.queues (-1) (fun _ => d') }, .ok [x])

/-- `extract` (astropysics/pipeline.py:178-206): the extracted items, oldest first (a single item
when `extractall` is not in effect). -/
def extract (B : Beh S D M) (fuel : Nat) (p : Pipe S D M) (extractall autoprocess : Bool) :
    Pipe S D M × Except Exc (List (Item D M)) :=
  if autoprocess then
    match processToStage B fuel p (-1) .on with
    | (p', .error e) => (p', .error e)
    | (p', .ok _) => extractLast p' extractall
  else extractLast p extractall

/-- The inner retry loop of `processSingle` (astropysics/pipeline.py:322-327). -/
def singleRetry (B : Beh S D M) (limit : Nat) (removefailed : Bool) (pre : Item D M) :
    Nat → Pipe S D M → Nat → Pipe S D M × Except Exc Unit
  | 0, p, _ => (p, .error .interrupted)
  | fuel + 1, p, st =>
    if cyc p st = 0 then (p, .ok ())
    else if limit ≠ 0 ∧ limit ≤ cyc p st then
      let p' := if removefailed then p
        else { p with queues := Py.update p.queues st (Py.append pre) }
      (p', .error .pipelineError)
    else
      match processStage B p st with
      | (p', .error e) => (p', .error e)
      | (p', .ok _) => singleRetry B limit removefailed pre fuel p' st

/-- The `for stage in range(len(self._elements))` loop of `processSingle`
(astropysics/pipeline.py:319-328). -/
def singleLoop (B : Beh S D M) (fuel limit : Nat) (removefailed : Bool) :
    Pipe S D M → List Nat → Pipe S D M × Except Exc Unit
  | p, [] => (p, .ok ())
  | p, st :: sts =>
    match ((p.queues[st]?).getD []).getLast? with
    | none => (p, .error .indexError)
    | some pre =>
      match processStage B p st with
      | (p', .error e) => (p', .error e)
      | (p', .ok _) =>
        match singleRetry B limit removefailed pre fuel p' st with
        | (p'', .error e) => (p'', .error e)
        | (p'', .ok _) => singleLoop B fuel limit removefailed p'' sts

/-- `processSingle` (astropysics/pipeline.py:291-331). -/
def processSingle (B : Beh S D M) (fuel : Nat) (p : Pipe S D M) (x : Item D M) (limit : Nat)
    (removefailed : Bool) : Pipe S D M × Except Exc (Item D M) :=
  let p0 := { p with queues := Py.update p.queues 0 (Py.append x) }
  match singleLoop B fuel limit removefailed p0 (List.range p.elems.length) with
  | (p', .error e) => (p', .error e)
  | (p', .ok _) =>
    match (Py.get? p'.queues (-1)).bind Py.popright with
    | none => (p', .error .indexError)
    | some (y, q') => ({ p' with queues := Py.update p'.queues (-1) (fun _ => q') }, .ok y)

/-- `clear` (astropysics/pipeline.py:380-395) with an explicit list of stages; stops at the first
IndexError. -/
def clearStages (p : Pipe S D M) : List Int → Pipe S D M × Except Exc Unit
  | [] => (p, .ok ())
  | k :: ks =>
    match Py.get? p.queues k with
    | none => (p, .error .indexError)
    | some _ => clearStages { p with queues := Py.update p.queues k (fun _ => []) } ks

/-- `clear()` (astropysics/pipeline.py:380-395). -/
def clearAll (p : Pipe S D M) : Pipe S D M × Except Exc Unit :=
  clearStages p ((List.range (p.elems.length + 1)).map Int.ofNat)

/-! ## Histories -/

/-- The public calls of `Pipeline`. -/
inductive Op (S D M : Type)
  | feed (x : Item D M)
  | feedMany (xs : List (Item D M))
  | processStage (k : Int)
  | processTo (k : Int) (rep : Repeat) (fuel : Nat)
  | extract (all auto : Bool) (fuel : Nat)
  | single (x : Item D M) (limit : Nat) (removefailed : Bool) (fuel : Nat)
  | add (k : Int) (e : Elem S)
  | remove (k : Int) (keepdata : Bool)
  | clear (ks : Option (List Int))

/-- The items a call returned to its caller (none if it raised). -/
def handed : Except Exc (List (Item D M)) → List (Item D M)
  | .ok xs => xs
  | .error _ => []

/-- One call on a pipeline: the new state and the items handed out to the caller (extracted, or the
result of `processSingle`). -/
def step (B : Beh S D M) (p : Pipe S D M) : Op S D M → Pipe S D M × List (Item D M)
  | .feed x => (feed p x, [])
  | .feedMany xs => (feedMany p xs, [])
  | .processStage k => ((processStage B p k).1, [])
  | .processTo k rep fuel => ((processToStage B fuel p k rep).1, [])
  | .extract all auto fuel =>
    ((extract B fuel p all auto).1, handed (extract B fuel p all auto).2)
  | .single x l r fuel =>
    ((processSingle B fuel p x l r).1, handed ((processSingle B fuel p x l r).2.map (fun y => [y])))
  | .add k e => (addElement p k e, [])
  | .remove k kd => ((removeElement p k kd).1, [])
  | .clear (some ks) => ((clearStages p ks).1, [])
  | .clear none => ((clearAll p).1, [])

/-- A history of calls; returns the final state and everything handed out, in order. -/
def run (B : Beh S D M) : Pipe S D M → List (Op S D M) → Pipe S D M × List (Item D M)
  | p, [] => (p, [])
  | p, op :: ops =>
    let (p', out) := step B p op
    let (p'', outs) := run B p' ops
    (p'', out ++ outs)

end Verif.Pipeline
