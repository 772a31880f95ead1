import Verif.CatVisit

/-! Specification of the traversal orders, independent of the code. -/

namespace Verif.Catalog

mutual
/-- Parent, then the subtrees from left to right. -/
def pre : Tree → List Nat
  | .node n ks => n :: preL ks
/-- `pre` of several trees in a row. -/
def preL : List Tree → List Nat
  | [] => []
  | t :: ts => pre t ++ preL ts
end

mutual
/-- The subtrees from left to right, then the parent. -/
def post : Tree → List Nat
  | .node n ks => postL ks ++ [n]
/-- `post` of several trees in a row. -/
def postL : List Tree → List Nat
  | [] => []
  | t :: ts => post t ++ postL ts
end

/-- The nodes at distance `d` from the root, left to right. -/
def atDepth : Nat → Tree → List Nat
  | 0, t => [t.id]
  | d + 1, t => t.kids.flatMap (atDepth d)

mutual
/-- Number of levels. -/
def height : Tree → Nat
  | .node _ ks => 1 + heightL ks
/-- Largest height. -/
def heightL : List Tree → Nat
  | [] => 0
  | t :: ts => max (height t) (heightL ts)
end

/-- Level by level, each from left to right. -/
def levelOrder (t : Tree) : List Nat := (List.range (height t)).flatMap (fun d => atDepth d t)

mutual
/-- Root after the first `i` subtrees if it has more than `i` of them, else last. -/
def inOrder (i : Nat) : Tree → List Nat
  | .node n ks =>
    if i < ks.length then
      ((inOrderL i ks).take i).flatten ++ n :: ((inOrderL i ks).drop i).flatten
    else (inOrderL i ks).flatten ++ [n]
/-- `inOrder` of each tree. -/
def inOrderL (i : Nat) : List Tree → List (List Nat)
  | [] => []
  | t :: ts => inOrder i t :: inOrderL i ts
end

/-- `s` is the subtree at some node of `t`. -/
inductive Sub (s : Tree) : Tree → Prop
  | refl : Sub s s
  | kid {n ks k} : k ∈ ks → Sub s k → Sub s (.node n ks)

/-- The order in which a traversal visits the nodes below `t`, `t` included. -/
def order : Trav → Tree → List Nat
  | .at (.ofNat i), t => inOrder i t
  | .at (.negSucc _), t => post t
  | .post, t => post t
  | .pre, t => pre t
  | .level, t => levelOrder t
  | _, t => [t.id]

/-- What a filter leaves of the nodes visited and of the values. -/
def keepNode {V : Type} : Filter V → Nat → Bool
  | .pred g => g
  | _ => fun _ => true

/-- What a filter leaves of the values. -/
def keepVal {V : Type} [DecidableEq V] : Filter V → Option V → Bool
  | .off => fun _ => true
  | .pred _ => fun v => v ≠ none
  | .value w => fun v => v ≠ w

end Verif.Catalog
