import Verif.CatVisitLemmas
import Verif.CatalogProps

/-!
# Property theorems for traversals (C13, C14, C15)

The orders `pre`, `post`, `inOrder`, `levelOrder` are specified in `CatVisitSpec`.
-/

namespace Verif.Catalog

variable {V : Type} [DecidableEq V]

/-- The subtree of every node of every reachable graph is a finite tree with pairwise different nodes: the
node and everything below it.  (So the recursions of `visit` and `nnodes` terminate.) -/
theorem subtree_is_finite_tree (eqv : Nat → Nat → Bool) (h : Forest) (hr : Reach eqv h) (n : Nat)
    (hn : n < h.size) :
    ∃ t, unfold h (h.size + 1) n = some t ∧ t.id = n ∧ (pre t).Nodup ∧
      ∀ m, m ∈ pre t ↔ m = n ∨ Above h n m := by
  have hi := hr.inv
  obtain ⟨t, ht⟩ := unfold_exists hi (h.size + 1) n [] hn List.nodup_nil (by simp) (by simp)
  obtain ⟨h1, h2⟩ := unfold_isTree _ _ _ ht
  refine ⟨t, ht, h1, isTree_nodup hi t h2, fun m => ?_⟩
  rw [isTree_mem hi h2 m, h1]

omit [DecidableEq V] in
theorem dropVals_wrap [DecidableEq V] (filter : Filter V) (f : Nat → Option V) (l : List Nat) :
    dropVals filter (l.map (wrap filter f)) = ((l.filter (keepNode filter)).map f).filter (keepVal filter) := by
  cases filter with
  | off => simp [dropVals, wrap, keepNode, keepVal]
  | value v => simp [dropVals, wrap, keepNode, keepVal]
  | pred g =>
    simp only [dropVals, wrap, keepNode, keepVal]
    induction l with
    | nil => rfl
    | cons n l ih =>
      by_cases hg : g n
      · simp only [List.map_cons, hg, if_true, List.filter_cons, ih]
      · simp only [List.map_cons, hg, List.filter_cons]
        simpa using ih

theorem dropVals_idem (filter : Filter V) (l : List (Option V)) :
    dropVals filter (dropVals filter l) = dropVals filter l := by
  cases filter <;> simp [dropVals, List.filter_filter]

theorem wrap_idem (filter : Filter V) (f : Nat → Option V) : wrap filter (wrap filter f) = wrap filter f := by
  cases filter with
  | off => rfl
  | value v => rfl
  | pred g => funext n; simp only [wrap]; split <;> rfl

theorem filter_bne_self {n : Nat} {l : List Nat} (hn : n ∉ l) : l.filter (fun x => x != n) = l := by
  apply List.filter_eq_self.mpr
  intro x hx
  simp only [bne_iff_ne, ne_eq]
  rintro rfl
  exact hn hx

theorem filter_root (t : Tree) (hn : (pre t).Nodup) (l : List Nat) (hl : l.Perm (preL t.kids)) :
    l.filter (fun x => x != t.id) = l := by
  apply filter_bne_self
  intro hm
  have := hl.mem_iff.mp hm
  cases t with
  | node n ks => simp [pre] at hn; exact hn.1 this

/-- The traversals `visit` supports with an order of its own. -/
def Trav.Ordered : Trav → Prop
  | .at _ => True
  | .post => True
  | .pre => True
  | .level => True
  | _ => False

theorem visitCore_at (t : Tree) (hn : (pre t).Nodup) (f : Nat → Option V) (i : Int) (filter : Filter V)
    (incl : Bool) :
    visitCore t f (.at i) filter incl
      = some (dropVals filter (((order (.at i) t).filter (fun n => incl || n != t.id)).map (wrap filter f))) := by
  unfold visitCore
  simp only [Option.map_some, Option.some.injEq]
  congr 1
  set f' := wrap filter f
  cases t with
  | node n ks =>
    simp only [Tree.id, Tree.kids]
    cases incl with
    | true =>
      simp only [Bool.true_or, List.filter_true]
      have : visitAtKids f' i n true ks 0 true = visitAt f' i (.node n ks) := by simp [visitAt]
      rw [this]
      cases i with
      | ofNat i => exact visitAt_nat f' i _
      | negSucc i => exact visitAt_neg f' _ (Int.negSucc_lt_zero i) _
    | false =>
      simp only [Bool.false_or]
      have hnot : n ∉ ks.flatMap pre := by
        simp [pre, preL_eq] at hn; simpa using hn.1
      cases i with
      | ofNat i =>
        rw [visitAtKids_done f' (Int.ofNat i) n false (inOrder i) ks (fun k _ => visitAt_nat f' i k) 0 true (Or.inr (Or.inl rfl))]
        simp only [Bool.and_false, Bool.false_eq_true, if_false, List.append_nil, order]
        congr 1
        unfold inOrder
        rw [inOrderL_eq]
        have hp : (ks.flatMap (inOrder i)).Perm (ks.flatMap pre) := List.Perm.flatMap_left _ (fun k _ => inOrder_perm i k)
        have hnot' : n ∉ (ks.map (inOrder i)).flatten := by
          have : (ks.map (inOrder i)).flatten = ks.flatMap (inOrder i) := rfl
          rw [this]; intro hm; exact hnot (hp.mem_iff.mp hm)
        split
        · have h1 : n ∉ ((ks.map (inOrder i)).take i).flatten ∧ n ∉ ((ks.map (inOrder i)).drop i).flatten := by
            rw [← List.take_append_drop i (ks.map (inOrder i)), List.flatten_append, List.mem_append, not_or] at hnot'
            exact hnot'
          rw [List.filter_append, List.filter_cons]
          have e1 := filter_bne_self h1.1
          have e2 := filter_bne_self h1.2
          simp only [bne_self_eq_false, Bool.false_eq_true, if_false]
          rw [e1, e2, ← List.flatten_append, List.take_append_drop]; rfl
        · rw [List.filter_append]
          have e1 := filter_bne_self hnot'
          rw [e1]; simp [List.flatMap]
      | negSucc i =>
        rw [visitAtKids_done f' (Int.negSucc i) n false post ks (fun k _ => visitAt_neg f' _ (Int.negSucc_lt_zero i) k) 0 true (Or.inr (Or.inl rfl))]
        simp only [Bool.and_false, Bool.false_eq_true, if_false, List.append_nil, order]
        congr 1
        unfold post
        rw [postL_eq]
        have hp : (ks.flatMap post).Perm (ks.flatMap pre) := List.Perm.flatMap_left _ (fun k _ => post_perm k)
        have e1 := filter_bne_self (fun hm => hnot (hp.mem_iff.mp hm))
        rw [List.filter_append]
        rw [e1]; simp

/-- **C13 and C14**: on a tree with pairwise different nodes (`subtree_is_finite_tree`), `visit` with any filter
returns, in the order of the traversal, the values of the nodes it is to visit (all, or all but the start
with `includeself=False`) that pass the filter function, without the filtered values.
The level traversal is covered with `includeself=True` only; with `includeself=False` it visits nothing
(`visit_level_excluding_self`). -/
theorem visit_spec (t : Tree) (hn : (pre t).Nodup) (f : Nat → Option V) (trav : Trav) (ht : trav.Ordered)
    (filter : Filter V) (incl : Bool) (hlev : trav = .level → incl = true) :
    visit t f trav filter incl
      = some (((((order trav t).filter (fun n => incl || n != t.id)).filter (keepNode filter)).map f).filter
          (keepVal filter)) := by
  cases trav with
  | «at» i =>
    show visitCore t f (.at i) filter incl = _
    rw [visitCore_at t hn, dropVals_wrap]
  | pre =>
    show (visitCore t (wrap filter f) (.at 0) filter incl).map (dropVals filter) = _
    rw [visitCore_at t hn, wrap_idem, Option.map_some, dropVals_idem, dropVals_wrap]
    have : order (.at 0) t = order .pre t := inOrder_zero t
    rw [this]
  | post =>
    show visitCore t f .post filter incl = _
    unfold visitCore
    simp only [Option.map_some, Option.some.injEq]
    rw [visitPostKids_eq, ← dropVals_wrap]
    congr 1
    cases t with
    | node n ks =>
      simp only [order, post, Tree.kids, Tree.id]
      cases incl with
      | true => simp
      | false =>
        have hp : (postL ks).Perm (preL ks) := by
          rw [postL_eq, preL_eq]; exact List.Perm.flatMap_left _ (fun k _ => post_perm k)
        have e1 := filter_root (.node n ks) hn (postL ks) hp
        simp only [Tree.id] at e1
        simp only [Bool.false_or, List.filter_append, e1]
        simp
  | level =>
    have := hlev rfl
    subst this
    show visitCore t f .level filter true = _
    unfold visitCore
    simp only [Option.map_some, Option.some.injEq, if_true]
    rw [levelLoop_tree, dropVals_wrap]
    simp [order]
  | only => exact absurd ht id
  | float => exact absurd ht id
  | other => exact absurd ht id

/-- **C13**: without a filter, one value per node, in the documented order. -/
theorem visit_all (t : Tree) (hn : (pre t).Nodup) (f : Nat → Option V) (trav : Trav) (ht : trav.Ordered) :
    visit t f trav .off true = some ((order trav t).map f) := by
  rw [visit_spec t hn f trav ht .off true (fun _ => rfl)]
  simp [keepNode, keepVal]

/-- **C13**: every traversal visits each node of the subtree exactly once. -/
theorem order_each_node_once (t : Tree) (trav : Trav) (ht : trav.Ordered) : (order trav t).Perm (pre t) := by
  cases trav with
  | «at» i => cases i with
    | ofNat i => exact inOrder_perm i t
    | negSucc i => exact post_perm t
  | post => exact post_perm t
  | pre => exact List.Perm.refl _
  | level => exact level_perm t
  | only => exact absurd ht id
  | float => exact absurd ht id
  | other => exact absurd ht id

/-- **C13**: in preorder each subtree is visited as a block that starts with its root; in postorder as a block
that ends with its root. -/
theorem subtrees_are_blocks (s t : Tree) (h : Sub s t) :
    (pre s <:+: pre t ∧ (pre s).head? = some s.id) ∧ (post s <:+: post t ∧ (post s).getLast? = some s.id) := by
  refine ⟨⟨pre_sub h, ?_⟩, ⟨post_sub h, ?_⟩⟩
  · cases s; rfl
  · cases s; simp [post, Tree.id]

/-- `includeself=False` is ignored by the level traversal in the wrong way: nothing at all is visited. -/
theorem visit_level_excluding_self (t : Tree) (f : Nat → Option V) (filter : Filter V) :
    visit t f .level filter false = some [] := by
  simp only [visit, visitCore, Bool.false_eq_true, if_false, levelLoop, Option.map_some]
  cases filter <;> simp [dropVals]

/-- Fractional traversals always raise. -/
theorem visit_float_raises (t : Tree) (f : Nat → Option V) (filter : Filter V) (incl : Bool) :
    visit t f .float filter incl = none := rfl

/-- The `None` traversal visits exactly the node itself. -/
theorem visit_only (t : Tree) (f : Nat → Option V) (incl : Bool) :
    visit t f .only .off incl = some [f t.id] := rfl

/-- **C15**: `nnodes` is the number of values an unfiltered visit returns, i.e. the number of nodes at or
below the node. -/
theorem nnodes_counts (t : Tree) (hn : (pre t).Nodup) (f : Nat → Option V) (trav : Trav) (ht : trav.Ordered) :
    nnodes t = (pre t).length ∧ (visit t f trav .off true).map List.length = some (nnodes t) := by
  refine ⟨nnodes_eq t, ?_⟩
  rw [visit_all t hn f trav ht, nnodes_eq]
  simp [(order_each_node_once t trav ht).length_eq]

/-- A tree with three levels: orders, filters. -/
def demoTree : Tree := .node 0 [.node 1 [.node 3 [], .node 4 []], .node 2 [.node 5 []]]
example : (pre demoTree).Nodup := by decide
example : visit demoTree some .post .off true = some ([3, 4, 1, 5, 2, 0].map some) := by
  rw [visit_all demoTree (by decide) some .post trivial]; decide
example : visit demoTree some .pre (.pred (· ≠ 4)) false = some ([1, 3, 2, 5].map some) := by
  rw [visit_spec demoTree (by decide) some .pre trivial _ false (by simp)]; decide
example : visit demoTree some .level (.value (some 2)) true = some ([0, 1, 3, 4, 5].map some) := by
  rw [visit_spec demoTree (by decide) some .level trivial _ true (by simp)]; decide
example : visit demoTree some (.at 1) .off true = some ([3, 1, 4, 0, 5, 2].map some) := by
  rw [visit_all demoTree (by decide) some (.at 1) trivial]; decide

end Verif.Catalog
