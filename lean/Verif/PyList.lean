/-!
# Python list and deque primitives

Small library of the Python container primitives that several models share.  The semantics is that of
CPython (trusted base): index normalisation, `list.insert` clamping, `del l[i]`, and `collections.deque`
as a list written left to right.
-/

deriving instance DecidableEq for Except

namespace Verif.Py

/-- Python index normalisation for subscripting a sequence of length `n` (used by every
`seq[i]`, `seq.pop(i)`, `del seq[i]` in the code, e.g. astropysics/pipeline.py:154-159):
negative indices count from the end, out-of-range ones are an IndexError (`none`). -/
def idx (n : Nat) (i : Int) : Option Nat :=
  if 0 ≤ i then
    if i < n then some i.toNat else none
  else
    if 0 ≤ i + n then some (i + n).toNat else none

/-- Position at which `list.insert(i, x)` inserts into a list of length `n`
(CPython semantics: negative counted from the end, clamped on both sides);
used by astropysics/pipeline.py:138-140. -/
def insertPos (n : Nat) (i : Int) : Nat :=
  if 0 ≤ i then min i.toNat n
  else (i + n).toNat

/-- `list.insert(i, x)` (astropysics/pipeline.py:138-140). -/
def insert {α : Type _} (l : List α) (i : Int) (x : α) : List α :=
  let k := insertPos l.length i
  l.take k ++ x :: l.drop k

/-- `seq[i]`, `none` for IndexError. -/
def get? {α : Type _} (l : List α) (i : Int) : Option α :=
  (idx l.length i).bind (fun k => l[k]?)

/-- `list.pop(i)`: removed element and remaining list, `none` for IndexError
(astropysics/pipeline.py:154-155). -/
def pop? {α : Type _} (l : List α) (i : Int) : Option (α × List α) :=
  (idx l.length i).bind (fun k => (l[k]?).map (fun x => (x, l.eraseIdx k)))

/-- In-place update of `seq[i]` by `f` (attribute/in-place mutation of the `i`-th member);
out of range leaves the list alone (callers guard for IndexError). -/
def update {α : Type _} (l : List α) (i : Int) (f : α → α) : List α :=
  match idx l.length i with
  | some k => l.modify k f
  | none => l

/-! ## `collections.deque`, written left to right -/

/-- `deque.appendleft(x)`. -/
def appendleft {α : Type _} (x : α) (q : List α) : List α := x :: q
/-- `deque.append(x)` (right end). -/
def append {α : Type _} (x : α) (q : List α) : List α := q ++ [x]
/-- `deque.pop()` from the right end; `none` is IndexError on an empty deque. -/
def popright {α : Type _} (q : List α) : Option (α × List α) :=
  (q.getLast?).map (fun x => (x, q.dropLast))
/-- `deque.rotate(k)` for `k ≥ 0`: move `k` elements from the right end to the left end, one at a
time, i.e. the last `k mod len` elements come first. -/
def rotate {α : Type _} (q : List α) (k : Nat) : List α :=
  if q.length = 0 then q
  else
    let r := k % q.length
    q.drop (q.length - r) ++ q.take (q.length - r)

end Verif.Py
