import Verif.Catalog

/-!
# Model of the traversals of astropysics/objcat.py (`visit`, `nnodes`, lines 227-347)

A traversal only follows `_children`, so it is modelled on the tree that hangs below a node.
`unfold` reads that tree out of the node graph (`CatVisitProps.subtree_is_finite_tree` shows that it exists for
every node of every reachable graph).  `func` is a pure function; its values are `Option V`, with `none` for
Python's `None`; `is` between values is equality.
-/

namespace Verif.Catalog

/-- A node with its subtrees. -/
inductive Tree
  | node (id : Nat) (kids : List Tree)
deriving Repr

/-- The node at the root. -/
def Tree.id : Tree → Nat
  | .node n _ => n

/-- The immediate subtrees. -/
def Tree.kids : Tree → List Tree
  | .node _ ks => ks

/-- Read the subtree below `n` out of the graph by following `_children` (fuel: depth). -/
def unfold (h : Forest) : Nat → Nat → Option Tree
  | 0, _ => none
  | fuel + 1, n => ((h.kids n).mapM (unfold h fuel)).map (Tree.node n)

mutual
/-- Number of nodes, for termination. -/
def Tree.size : Tree → Nat
  | .node _ ks => 1 + sizes ks
/-- Sum of `Tree.size`. -/
def sizes : List Tree → Nat
  | [] => 0
  | t :: ts => t.size + sizes ts
end

mutual
/-- `nnodes` (astropysics/objcat.py:228-234). -/
def nnodes : Tree → Nat
  | .node _ ks => nnodesSum ks 1
/-- `sum([c.nnodes for c in self._children],1)` (astropysics/objcat.py:234). -/
def nnodesSum : List Tree → Nat → Nat
  | [], acc => acc
  | t :: ts, acc => nnodesSum ts (acc + nnodes t)
end

/-- The `filter` argument of `visit`. -/
inductive Filter (V : Type)
  | off
  | pred (g : Nat → Bool)
  | value (v : Option V)

/-- The `traversal` argument of `visit`. -/
inductive Trav
  | at (i : Int)
  | post | pre | level | only | float | other
deriving DecidableEq, Repr

variable {V : Type}

mutual
/-- The integer branch of `visit` for a node that is visited itself (as every node below the start is,
astropysics/objcat.py:308-317). -/
def visitAt (f : Nat → Option V) (i : Int) : Tree → List (Option V)
  | .node n ks => visitAtKids f i n true ks 0 true
/-- The loop over the children in the integer branch: current index `j`, `doroot`
(astropysics/objcat.py:309-317). -/
def visitAtKids (f : Nat → Option V) (i : Int) (n : Nat) (incl : Bool) :
    List Tree → Nat → Bool → List (Option V)
  | [], _, doroot => if doroot && incl then [f n] else []
  | c :: cs, j, doroot =>
    if (j : Int) = i ∧ incl then f n :: (visitAt f i c ++ visitAtKids f i n incl cs (j + 1) false)
    else visitAt f i c ++ visitAtKids f i n incl cs (j + 1) doroot
end

mutual
/-- The `'postorder'` branch (astropysics/objcat.py:329-334), start included. -/
def visitPost (f : Nat → Option V) : Tree → List (Option V)
  | .node n ks => visitPostKids f ks ++ [f n]
/-- The loop over the children in the `'postorder'` branch (astropysics/objcat.py:331-332). -/
def visitPostKids (f : Nat → Option V) : List Tree → List (Option V)
  | [] => []
  | c :: cs => visitPost f c ++ visitPostKids f cs
end

theorem sizes_append : ∀ a b : List Tree, sizes (a ++ b) = sizes a + sizes b := by
  intro a
  induction a with
  | nil => intro b; simp [sizes]
  | cons t ts ih => intro b; simp [sizes, ih, Nat.add_assoc]

/-- The queue loop of the `'level'` branch (astropysics/objcat.py:337-345). -/
def levelLoop (f : Nat → Option V) : List Tree → List (Option V)
  | [] => []
  | .node n ks :: q => f n :: levelLoop f (q ++ ks)
termination_by q => sizes q
decreasing_by simp [sizes, Tree.size, sizes_append]; omega

/-- The callable branch of the filter handling (astropysics/objcat.py:292-302). -/
def wrap (filter : Filter V) (f : Nat → Option V) : Nat → Option V :=
  match filter with
  | .pred g => fun n => if g n then f n else none
  | _ => f

/-- The final filtering (astropysics/objcat.py:351-352). -/
def dropVals [DecidableEq V] (filter : Filter V) (l : List (Option V)) : List (Option V) :=
  match filter with
  | .off => l
  | .pred _ => l.filter (· ≠ none)
  | .value v => l.filter (· ≠ v)

/-- `visit` (astropysics/objcat.py:256-353) except for the `'preorder'` branch; `none`: it raises (a float
multiplies a list; an unknown traversal is a ValueError). -/
def visitCore [DecidableEq V] (t : Tree) (f : Nat → Option V) (trav : Trav) (filter : Filter V) (incl : Bool) :
    Option (List (Option V)) :=
  let f' := wrap filter f
  let vals : Option (List (Option V)) :=
    match trav with
    | .at i => some (visitAtKids f' i t.id incl t.kids 0 true)
    | .post => some (visitPostKids f' t.kids ++ if incl then [f' t.id] else [])
    | .level => some (levelLoop f' (if incl then [t] else []))
    | .only => some [f' t.id]
    | _ => none
  vals.map (dropVals filter)

/-- `visit` (astropysics/objcat.py:256-353): `'preorder'` is the integer traversal 0 with the already wrapped
function, filtered once more (astropysics/objcat.py:335-336). -/
def visit [DecidableEq V] (t : Tree) (f : Nat → Option V) (trav : Trav) (filter : Filter V) (incl : Bool) :
    Option (List (Option V)) :=
  match trav with
  | .pre => (visitCore t (wrap filter f) (.at 0) filter incl).map (dropVals filter)
  | _ => visitCore t f trav filter incl

end Verif.Catalog
