import Verif.Pipeline

/-!
# Specification vocabulary for the pipeline properties

Written independently of how the model computes: what it means for an element to be a faithful
implementation of a function, and what the data "still in the pipeline" stand for.
-/

namespace Verif.Pipeline

variable {S D M : Type}

/-- The data in a list of items (messages left out). -/
def dataOf : List (Item D M) → List D
  | [] => []
  | .data d :: xs => d :: dataOf xs
  | .msg _ :: xs => dataOf xs

/-- A datum sent through the stages with the given identities, `fn i` being the function that element
`i` computes. -/
def through (fn : Nat → D → D) : List Nat → D → D
  | [], d => d
  | i :: is, d => through fn is (fn i d)

/-- Identities of the elements, in stage order. -/
def ids (p : Pipe S D M) : List Nat := p.elems.map (·.id)

/-- What the queued data stand for: every queued datum sent through the stages it has not seen yet,
oldest first.  The output queue is the last of `qs`; within a queue (written left to right) the right
end is the oldest. -/
def pending (fn : Nat → D → D) : List Nat → List (List (Item D M)) → List D
  | _, [] => []
  | is, q :: qs => pending fn is.tail qs ++ (dataOf q.reverse).map (through fn is)

/-- An element behaviour faithful to the functions `fn`: it accepts every datum; every attempt at
a datum `d` either completes with `fn i d`, or raises, or returns `None` after saving `d` (exactly once)
with `resaveData`.  Which of these happens may depend on the element's state in any way. -/
def Faithful (B : Beh S D M) (fn : Nat → D → D) : Prop :=
  ∀ e d, B.accepts e d = true ∧
    match B.process e d with
    | (_, r, .value y) => r = [] ∧ y = fn e.id d
    | (_, r, .raise) => r = []
    | (s, r, .none) =>
      match B.interact { e with st := s } d with
      | (_, r', .value y) => r ++ r' = [] ∧ y = fn e.id d
      | (_, r', .raise) => r ++ r' = []
      | (_, r', .none) => r ++ r' = [d]

/-- A behaviour that completes every datum at the first attempt with `fn i d`, leaving the element
state alone. -/
def Completes (B : Beh S D M) (fn : Nat → D → D) : Prop :=
  ∀ e d, B.accepts e d = true ∧ B.process e d = (e.st, [], .value (fn e.id d))

/-- The calls of C01: feeding, stage runs with ordinary (nonnegative) stage numbers, running to a
stage in any repeat mode, extracting. -/
def Op.Standard : Op S D M → Prop
  | .feed _ => True
  | .feedMany _ => True
  | .processStage k => 0 ≤ k
  | .processTo _ _ _ => True
  | .extract _ _ _ => True
  | _ => False

/-- The data a call feeds. -/
def Op.fed : Op S D M → List D
  | .feed x => dataOf [x]
  | .feedMany xs => dataOf xs
  | _ => []

end Verif.Pipeline
