import Mathlib.Data.List.Basic
import Mathlib.Data.List.Nodup
import Mathlib.Tactic.Linarith

/-!
# Pruning and visiting TeX node trees (astropysics/publication.py 96-183)

Nodes are objects with identity: a heap from addresses to the node's parent, its children (`None`
after pruning) and whether those are a list (the class attribute of leaves, and a comment's line end,
are tuples).  `label` stands for all that the node contributes to the text itself; the text of a
document is a function of the tree of labels (`render`).
-/

namespace Verif.TeXTree

abbrev Str := List Char

/-- What `getSelfText` returns, publication.py 101-131: a pair around the children's texts, or the
complete text computed from the children (commands). -/
inductive Label where
  | wrap (before after : Str)
  | whole (f : List Str → Str)

structure Obj where
  parent : Option Nat
  children : Option (List Nat)
  isList : Bool
  label : Label

abbrev Heap := Nat → Obj

inductive Err where
  | valueError | attributeError | typeError
deriving DecidableEq, Repr

def setParent (h : Heap) (v : Nat) (p : Option Nat) : Heap :=
  fun n => if n = v then { h n with parent := p } else h n

def setChildren (h : Heap) (v : Nat) (cs : Option (List Nat)) : Heap :=
  fun n => if n = v then { h n with children := cs } else h n

/-- publication.py 145-150: the part of `prune` after the node was taken from its parent: unlink and
prune the children (whose parent is then `None`), and set the children of an inner node to `None`.
Fuel bounds the depth. -/
def pruneDown : Nat → Heap → Nat → Heap
  | 0, h, _ => h
  | f + 1, h, v =>
    match (h v).children with
    | none => h
    | some cs =>
      let h' := cs.foldl (fun h c => pruneDown f (setParent h c none) c) h
      if cs = [] then h' else setChildren h' v none

/-- publication.py 133-150. -/
def prune (f : Nat) (h : Heap) (v : Nat) (prunechildren : Bool) : Except Err Heap :=
  let down (h : Heap) := if prunechildren then pruneDown f h v else h
  match (h v).parent with
  | none => .ok (down h)
  | some p =>
    match (h p).children with
    | none => .error .attributeError
    | some cs =>
      if !(h p).isList then .error .attributeError
      else if v ∈ cs then .ok (down (setParent (setChildren h p (some (cs.erase v))) v none))
      else .error .valueError

/-- A list comprehension over calls that may raise. -/
def mapE {β : Type} (g : Nat → Except Err β) : List Nat → Except Err (List β)
  | [] => .ok []
  | c :: cs =>
    match g c with
    | .error e => .error e
    | .ok t =>
      match mapE g cs with
      | .error e => .error e
      | .ok ts => .ok (t :: ts)

/-- publication.py 113-131; a node whose children were pruned away (`None`) cannot be printed.
(Fuel bounds the depth.) -/
def text : Nat → Heap → Nat → Except Err Str
  | 0, _, _ => .error .typeError
  | f + 1, h, v =>
    match (h v).children with
    | none => .error .typeError
    | some cs =>
      match mapE (text f h) cs with
      | .error e => .error e
      | .ok ts =>
        match (h v).label with
        | .wrap b a => .ok (b ++ ts.flatten ++ a)
        | .whole g => .ok (g ts)

/-- `visit` (publication.py 152-171): `func` on the node, then on its children; `None` results are
left out. -/
def visit {β : Type} (func : Nat → Option β) : Nat → Heap → Nat → List β
  | 0, _, _ => []
  | f + 1, h, v =>
    (func v).toList ++ (match (h v).children with
      | none => []
      | some cs => cs.flatMap (visit func f h))

/-! ## Specification: documents as trees -/

inductive Tree where
  | node (id : Nat) (cs : List Tree)

namespace Tree

def id : Tree → Nat
  | .node i _ => i

mutual
/-- All nodes, a node before its children, children in order. -/
def ids : Tree → List Nat
  | .node i cs => i :: idsL cs
def idsL : List Tree → List Nat
  | [] => []
  | t :: ts => ids t ++ idsL ts
end

mutual
/-- The tree without the subtree at `v`. -/
def remove (v : Nat) : Tree → Tree
  | .node i cs => .node i (removeL v cs)
def removeL (v : Nat) : List Tree → List Tree
  | [] => []
  | t :: ts => if t.id = v then removeL v ts else remove v t :: removeL v ts
end

mutual
def render (label : Nat → Label) : Tree → Str
  | .node i cs =>
    match label i with
    | .wrap b a => b ++ (renderL label cs).flatten ++ a
    | .whole g => g (renderL label cs)
def renderL (label : Nat → Label) : List Tree → List Str
  | [] => []
  | t :: ts => render label t :: renderL label ts
end

mutual
def depth : Tree → Nat
  | .node _ cs => depthL cs + 1
def depthL : List Tree → Nat
  | [] => 0
  | t :: ts => max (depth t) (depthL ts)
end

mutual
/-- The subtree at `v`, if there is one. -/
def sub (v : Nat) : Tree → Option Tree
  | .node i cs => if i = v then some (.node i cs) else subL v cs
def subL (v : Nat) : List Tree → Option Tree
  | [] => none
  | t :: ts =>
    match sub v t with
    | some s => some s
    | none => subL v ts
end

end Tree

open Tree

mutual
/-- The heap holds this tree: every node has its parent and children; nodes with children have a
list. -/
def Holds (h : Heap) (p : Option Nat) : Tree → Prop
  | .node i cs => (h i).parent = p ∧ (h i).children = some (cs.map Tree.id) ∧
      (cs ≠ [] → (h i).isList = true) ∧ HoldsL h (some i) cs
def HoldsL (h : Heap) (p : Option Nat) : List Tree → Prop
  | [] => True
  | t :: ts => Holds h p t ∧ HoldsL h p ts
end

/-! ## Lemmas -/

theorem ids_node (i : Nat) (cs : List Tree) : ids (.node i cs) = i :: idsL cs := by simp [ids]

theorem id_mem_ids (t : Tree) : t.id ∈ ids t := by
  cases t; simp [ids, Tree.id]

theorem ids_subset_idsL {t : Tree} {ts : List Tree} (h : t ∈ ts) : ids t ⊆ idsL ts := by
  induction ts with
  | nil => simp at h
  | cons x ts ih =>
    simp only [idsL]
    rcases List.mem_cons.mp h with rfl | h
    · exact List.subset_append_left _ _
    · exact fun n hn => List.mem_append.mpr (Or.inr (ih h hn))

mutual
theorem holds_congr {h h' : Heap} {p : Option Nat} : ∀ (t : Tree), (∀ n ∈ ids t, h n = h' n) →
    Holds h p t → Holds h' p t
  | .node i cs, he, hh => by
    simp only [Holds] at hh ⊢
    have hi : h i = h' i := he i (by simp [ids])
    rw [← hi]
    exact ⟨hh.1, hh.2.1, hh.2.2.1, holdsL_congr cs (fun n hn => he n (by simp [ids, hn])) hh.2.2.2⟩
theorem holdsL_congr {h h' : Heap} {p : Option Nat} : ∀ (ts : List Tree),
    (∀ n ∈ idsL ts, h n = h' n) → HoldsL h p ts → HoldsL h' p ts
  | [], _, _ => by simp [HoldsL]
  | t :: ts, he, hh => by
    simp only [HoldsL] at hh ⊢
    exact ⟨holds_congr t (fun n hn => he n (by simp [idsL, hn])) hh.1,
      holdsL_congr ts (fun n hn => he n (by simp [idsL, hn])) hh.2⟩
end

mutual
theorem remove_absent {v : Nat} : ∀ (t : Tree), v ∉ ids t → remove v t = t
  | .node i cs, h => by
    simp only [ids, List.mem_cons, not_or] at h
    simp only [remove]
    rw [removeL_absent cs h.2]
theorem removeL_absent {v : Nat} : ∀ (ts : List Tree), v ∉ idsL ts → removeL v ts = ts
  | [], _ => by simp [removeL]
  | t :: ts, h => by
    simp only [idsL, List.mem_append, not_or] at h
    simp only [removeL]
    have hne : ¬ t.id = v := fun e => h.1 (e ▸ id_mem_ids t)
    rw [if_neg hne, remove_absent t h.1, removeL_absent ts h.2]
end

theorem remove_id (v : Nat) (t : Tree) : (remove v t).id = t.id := by
  cases t; simp [remove, Tree.id]

mutual
theorem ids_remove_subset {v : Nat} : ∀ (t : Tree), ids (remove v t) ⊆ ids t
  | .node i cs => by
    simp only [remove, ids]
    intro n hn
    rcases List.mem_cons.mp hn with rfl | hn
    · simp
    · exact List.mem_cons_of_mem _ (idsL_remove_subset cs hn)
theorem idsL_remove_subset {v : Nat} : ∀ (ts : List Tree), idsL (removeL v ts) ⊆ idsL ts
  | [] => by simp [removeL]
  | t :: ts => by
    simp only [removeL, idsL]
    split_ifs
    · exact fun n hn => List.mem_append.mpr (Or.inr (idsL_remove_subset ts hn))
    · simp only [idsL]
      intro n hn
      rcases List.mem_append.mp hn with hn | hn
      · exact List.mem_append.mpr (Or.inl (ids_remove_subset t hn))
      · exact List.mem_append.mpr (Or.inr (idsL_remove_subset ts hn))
end

/-- The ids at the top of a forest after removing one of them. -/
theorem removeL_top {v : Nat} (ts : List Tree) (hn : (idsL ts).Nodup) (hv : v ∈ ts.map Tree.id) :
    (removeL v ts).map Tree.id = (ts.map Tree.id).erase v ∧
    ∀ t ∈ removeL v ts, t ∈ ts := by
  induction ts with
  | nil => simp at hv
  | cons t ts ih =>
    simp only [idsL] at hn
    rw [List.nodup_append] at hn
    obtain ⟨h1, h2, h3⟩ := hn
    simp only [removeL]
    by_cases ht : t.id = v
    · rw [if_pos ht]
      have hv' : v ∉ idsL ts := fun hm => h3 v (ht ▸ id_mem_ids t) v hm rfl
      rw [removeL_absent ts hv']
      refine ⟨by simp [ht], fun x hx => by simp [hx]⟩
    · rw [if_neg ht]
      have hv' : v ∈ ts.map Tree.id := by
        rcases List.mem_cons.mp hv with h | h
        · exact absurd h.symm ht
        · exact h
      obtain ⟨x, hx, hxv⟩ := List.mem_map.mp hv'
      have hvt : v ∉ ids t := fun hm =>
        h3 v hm v (ids_subset_idsL hx (hxv ▸ id_mem_ids x)) rfl
      rw [remove_absent t hvt]
      obtain ⟨e1, e2⟩ := ih h2 hv'
      constructor
      · rw [List.map_cons, List.map_cons, e1, List.erase_cons_tail (by simpa using ht)]
      · intro y hy
        rcases List.mem_cons.mp hy with rfl | hy
        · simp
        · simp [e2 y hy]

theorem holdsL_iff {h : Heap} {p : Option Nat} (ts : List Tree) :
    HoldsL h p ts ↔ ∀ t ∈ ts, Holds h p t := by
  induction ts with
  | nil => simp [HoldsL]
  | cons t ts ih => simp [HoldsL, ih]

mutual
/-- Taking a node out of its parent's list leaves a heap that holds the tree without it. -/
theorem unlink {h : Heap} {v : Nat} : ∀ (t : Tree) (pp : Option Nat), Holds h pp t → (ids t).Nodup →
    v ∈ ids t → v ≠ t.id →
    ∃ p cs, (h v).parent = some p ∧ p ∈ ids t ∧ (h p).children = some cs ∧ (h p).isList = true ∧
      v ∈ cs ∧ Holds (setChildren h p (some (cs.erase v))) pp (remove v t) ∧ v ∉ ids (remove v t)
  | .node i cs, pp, hh, hn, hv, hne => by
    simp only [Holds] at hh
    obtain ⟨h1, h2, h3, h4⟩ := hh
    simp only [ids, List.nodup_cons] at hn
    simp only [ids, List.mem_cons, Tree.id] at hv hne
    have hv' : v ∈ idsL cs := by tauto
    have hcs : cs ≠ [] := by rintro rfl; simp [idsL] at hv'
    by_cases htop : v ∈ cs.map Tree.id
    · obtain ⟨e1, e2⟩ := removeL_top cs hn.2 htop
      obtain ⟨x, hx, hxv⟩ := List.mem_map.mp htop
      have hvp : (h v).parent = some i := by
        have := (holdsL_iff cs).mp h4 x hx
        cases x with
        | node j ds =>
          simp only [Tree.id] at hxv
          subst hxv
          simp only [Holds] at this
          exact this.1
      refine ⟨i, cs.map Tree.id, hvp, by simp [ids], h2, h3 hcs, htop, ?_, ?_⟩
      · simp only [remove, Holds]
        refine ⟨by simp [setChildren, h1], by simp [setChildren, e1], fun _ => by
          simp [setChildren, h3 hcs], ?_⟩
        rw [holdsL_iff]
        intro t ht
        have := (holdsL_iff cs).mp h4 t (e2 t ht)
        refine holds_congr t ?_ this
        intro n hnt
        have hni : n ≠ i := fun e => hn.1 (e ▸ ids_subset_idsL (e2 t ht) hnt)
        simp [setChildren, hni]
      · simp only [remove, ids, List.mem_cons, not_or]
        refine ⟨hne, ?_⟩
        intro hm
        exact idsL_not_mem cs hn.2 htop hm
    · obtain ⟨p, ds, a1, a2, a3, a4, a5, a6, a7⟩ := unlinkL cs (some i) h4 hn.2 hv' htop
      refine ⟨p, ds, a1, by simp [ids, a2], a3, a4, a5, ?_, ?_⟩
      · have hpi : i ≠ p := fun e => hn.1 (e ▸ a2)
        simp only [remove, Holds]
        have hmap : (removeL v cs).map Tree.id = cs.map Tree.id := removeL_map_id cs htop
        refine ⟨by simp [setChildren, hpi, h1], by simp [setChildren, hpi, h2, hmap], fun _ => by
          simp [setChildren, hpi, h3 hcs], a6⟩
      · simp only [remove, ids, List.mem_cons, not_or]
        exact ⟨hne, a7⟩
theorem unlinkL {h : Heap} {v : Nat} : ∀ (ts : List Tree) (pp : Option Nat), HoldsL h pp ts →
    (idsL ts).Nodup → v ∈ idsL ts → v ∉ ts.map Tree.id →
    ∃ p cs, (h v).parent = some p ∧ p ∈ idsL ts ∧ (h p).children = some cs ∧ (h p).isList = true ∧
      v ∈ cs ∧ HoldsL (setChildren h p (some (cs.erase v))) pp (removeL v ts) ∧ v ∉ idsL (removeL v ts)
  | [], _, _, _, hv, _ => by simp [idsL] at hv
  | t :: ts, pp, hh, hn, hv, hne => by
    simp only [HoldsL] at hh
    simp only [idsL] at hn
    rw [List.nodup_append] at hn
    obtain ⟨n1, n2, n3⟩ := hn
    simp only [idsL, List.mem_append] at hv
    simp only [List.map_cons, List.mem_cons, not_or] at hne
    have hnt : ¬ t.id = v := fun e => hne.1 e.symm
    simp only [removeL, if_neg hnt]
    by_cases hvt : v ∈ ids t
    · obtain ⟨p, cs, a1, a2, a3, a4, a5, a6, a7⟩ := unlink t pp hh.1 n1 hvt hne.1
      have hvts : v ∉ idsL ts := fun hm => n3 v hvt v hm rfl
      refine ⟨p, cs, a1, by simp [idsL, a2], a3, a4, a5, ?_, ?_⟩
      · simp only [HoldsL]
        refine ⟨a6, ?_⟩
        rw [removeL_absent ts hvts]
        refine holdsL_congr ts ?_ hh.2
        intro n hm
        have : n ≠ p := fun e => n3 p a2 n hm e.symm
        simp [setChildren, this]
      · simp only [idsL, List.mem_append, not_or]
        rw [removeL_absent ts hvts]
        exact ⟨a7, hvts⟩
    · have hvts : v ∈ idsL ts := by tauto
      obtain ⟨p, cs, a1, a2, a3, a4, a5, a6, a7⟩ := unlinkL ts pp hh.2 n2 hvts hne.2
      refine ⟨p, cs, a1, by simp [idsL, a2], a3, a4, a5, ?_, ?_⟩
      · simp only [HoldsL]
        refine ⟨?_, a6⟩
        rw [remove_absent t hvt]
        refine holds_congr t ?_ hh.1
        intro n hm
        have : n ≠ p := fun e => n3 n hm p a2 e
        simp [setChildren, this]
      · simp only [idsL, List.mem_append, not_or]
        rw [remove_absent t hvt]
        exact ⟨hvt, a7⟩
theorem removeL_map_id {v : Nat} : ∀ (ts : List Tree), v ∉ ts.map Tree.id →
    (removeL v ts).map Tree.id = ts.map Tree.id
  | [], _ => by simp [removeL]
  | t :: ts, h => by
    simp only [List.map_cons, List.mem_cons, not_or] at h
    simp only [removeL]
    rw [if_neg (fun e => h.1 e.symm), List.map_cons, List.map_cons, remove_id, removeL_map_id ts h.2]
theorem idsL_not_mem {v : Nat} : ∀ (ts : List Tree), (idsL ts).Nodup → v ∈ ts.map Tree.id →
    v ∉ idsL (removeL v ts)
  | [], _, hv => by simp at hv
  | t :: ts, hn, hv => by
    simp only [idsL] at hn
    rw [List.nodup_append] at hn
    obtain ⟨n1, n2, n3⟩ := hn
    simp only [removeL]
    by_cases ht : t.id = v
    · rw [if_pos ht]
      have hv' : v ∉ idsL ts := fun hm => n3 v (ht ▸ id_mem_ids t) v hm rfl
      rw [removeL_absent ts hv']
      exact hv'
    · rw [if_neg ht]
      have hv' : v ∈ ts.map Tree.id := by
        rcases List.mem_cons.mp hv with h | h
        · exact absurd h.symm ht
        · exact h
      obtain ⟨x, hx, hxv⟩ := List.mem_map.mp hv'
      have hvt : v ∉ ids t := fun hm =>
        n3 v hm v (ids_subset_idsL hx (hxv ▸ id_mem_ids x)) rfl
      simp only [idsL, List.mem_append, not_or]
      rw [remove_absent t hvt]
      exact ⟨hvt, idsL_not_mem ts n2 hv'⟩
end

mutual
theorem text_holds {h : Heap} : ∀ (t : Tree) (p : Option Nat) (f : Nat), depth t ≤ f → Holds h p t →
    text f h t.id = .ok (render (fun n => (h n).label) t)
  | .node i cs, p, f, hd, hh => by
    simp only [depth] at hd
    obtain ⟨f, rfl⟩ : ∃ k, f = k + 1 := ⟨f - 1, by omega⟩
    simp only [Holds] at hh
    simp only [text, Tree.id, hh.2.1]
    rw [textL_holds cs (some i) f (by omega) hh.2.2.2]
    simp only [render]
    cases (h i).label <;> rfl
theorem textL_holds {h : Heap} : ∀ (ts : List Tree) (p : Option Nat) (f : Nat), depthL ts ≤ f →
    HoldsL h p ts → mapE (text f h) (ts.map Tree.id) = .ok (renderL (fun n => (h n).label) ts)
  | [], _, _, _, _ => by simp [mapE, renderL]
  | t :: ts, p, f, hd, hh => by
    simp only [depthL] at hd
    simp only [HoldsL] at hh
    simp only [List.map_cons, mapE]
    rw [text_holds t p f (by omega) hh.1, textL_holds ts p f (by omega) hh.2]
    simp only [renderL]
end

mutual
theorem visit_holds {h : Heap} {β : Type} (func : Nat → Option β) : ∀ (t : Tree) (p : Option Nat)
    (f : Nat), depth t ≤ f → Holds h p t → visit func f h t.id = (ids t).filterMap func
  | .node i cs, p, f, hd, hh => by
    simp only [depth] at hd
    obtain ⟨f, rfl⟩ : ∃ k, f = k + 1 := ⟨f - 1, by omega⟩
    simp only [Holds] at hh
    simp only [visit, Tree.id, hh.2.1]
    rw [visitL_holds func cs (some i) f (by omega) hh.2.2.2]
    simp only [ids, List.filterMap_cons]
    cases func i <;> rfl
theorem visitL_holds {h : Heap} {β : Type} (func : Nat → Option β) : ∀ (ts : List Tree)
    (p : Option Nat) (f : Nat), depthL ts ≤ f → HoldsL h p ts →
    (ts.map Tree.id).flatMap (visit func f h) = (idsL ts).filterMap func
  | [], _, _, _, _ => by simp [idsL]
  | t :: ts, p, f, hd, hh => by
    simp only [depthL] at hd
    simp only [HoldsL] at hh
    simp only [List.map_cons, List.flatMap_cons, idsL, List.filterMap_append]
    rw [visit_holds func t p f (by omega) hh.1, visitL_holds func ts p f (by omega) hh.2]
end

/-! ### Pruning the children -/

mutual
/-- The children of the nodes are as in the tree (parents may have changed). -/
def Kids (h : Heap) : Tree → Prop
  | .node i cs => (h i).children = some (cs.map Tree.id) ∧ KidsL h cs
def KidsL (h : Heap) : List Tree → Prop
  | [] => True
  | t :: ts => Kids h t ∧ KidsL h ts
end

mutual
theorem kids_congr {h h' : Heap} : ∀ (t : Tree), (∀ n ∈ ids t, (h n).children = (h' n).children) →
    Kids h t → Kids h' t
  | .node i cs, he, hh => by
    simp only [Kids] at hh ⊢
    rw [← he i (by simp [ids])]
    exact ⟨hh.1, kidsL_congr cs (fun n hn => he n (by simp [ids, hn])) hh.2⟩
theorem kidsL_congr {h h' : Heap} : ∀ (ts : List Tree),
    (∀ n ∈ idsL ts, (h n).children = (h' n).children) → KidsL h ts → KidsL h' ts
  | [], _, _ => by simp [KidsL]
  | t :: ts, he, hh => by
    simp only [KidsL] at hh ⊢
    exact ⟨kids_congr t (fun n hn => he n (by simp [idsL, hn])) hh.1,
      kidsL_congr ts (fun n hn => he n (by simp [idsL, hn])) hh.2⟩
end

mutual
theorem holds_kids {h : Heap} : ∀ (t : Tree) (p : Option Nat), Holds h p t → Kids h t
  | .node i cs, p, hh => by
    simp only [Holds] at hh
    simp only [Kids]
    exact ⟨hh.2.1, holdsL_kids cs (some i) hh.2.2.2⟩
theorem holdsL_kids {h : Heap} : ∀ (ts : List Tree) (p : Option Nat), HoldsL h p ts → KidsL h ts
  | [], _, _ => by simp [KidsL]
  | t :: ts, p, hh => by
    simp only [HoldsL] at hh
    simp only [KidsL]
    exact ⟨holds_kids t p hh.1, holdsL_kids ts p hh.2⟩
end

/-- A node that keeps nothing below it. -/
def Bare (o : Obj) : Prop := o.children = none ∨ o.children = some []

/-- What pruning the children of the trees `ts` does to the heap. -/
structure Cleared (S top : List Nat) (h h' : Heap) : Prop where
  frame : ∀ n, n ∉ S → h' n = h n
  label : ∀ n, (h' n).label = (h n).label
  parents : ∀ n ∈ S, n ∉ top → (h' n).parent = none
  tops : ∀ n ∈ top, (h' n).parent = (h n).parent
  bare : ∀ n ∈ S, Bare (h' n)

theorem pruneDown_spec (f : Nat) : ∀ (t : Tree) (h : Heap), depth t ≤ f → Kids h t → (ids t).Nodup →
    Cleared (ids t) [t.id] h (pruneDown f h t.id) := by
  induction f with
  | zero =>
    intro t h hd
    cases t; simp [depth] at hd
  | succ f ih =>
    have list : ∀ (ts : List Tree) (h : Heap), depthL ts ≤ f → KidsL h ts → (idsL ts).Nodup →
        Cleared (idsL ts) [] h
          ((ts.map Tree.id).foldl (fun h c => pruneDown f (setParent h c none) c) h) := by
      intro ts
      induction ts with
      | nil =>
        intro h _ _ _
        exact ⟨fun _ _ => rfl, fun _ => rfl, fun _ _ _ => by simp_all [idsL], fun _ _ => rfl,
          fun _ hn => by simp [idsL] at hn⟩
      | cons t ts iht =>
        intro h hd hk hn
        simp only [depthL] at hd
        simp only [KidsL] at hk
        simp only [idsL] at hn
        rw [List.nodup_append] at hn
        obtain ⟨n1, n2, n3⟩ := hn
        simp only [List.map_cons, List.foldl_cons]
        have hk0 : Kids (setParent h t.id none) t :=
          kids_congr t (fun n _ => by unfold setParent; split_ifs <;> rfl) hk.1
        have c1 := ih t (setParent h t.id none) (by omega) hk0 n1
        generalize hg : pruneDown f (setParent h t.id none) t.id = h1 at c1 ⊢
        have hne : ∀ n ∈ idsL ts, h1 n = h n := by
          intro n hm
          have hnt : n ∉ ids t := fun hm' => n3 n hm' n hm rfl
          rw [c1.frame n hnt]
          have : n ≠ t.id := fun e => hnt (e ▸ id_mem_ids t)
          simp [setParent, this]
        have hk1 : KidsL h1 ts := kidsL_congr ts (fun n hm => by rw [hne n hm]) hk.2
        have c2 := iht h1 (by omega) hk1 n2
        generalize (ts.map Tree.id).foldl (fun h c => pruneDown f (setParent h c none) c) h1 = h2 at c2 ⊢
        refine ⟨?_, ?_, ?_, ?_, ?_⟩
        · intro n hm
          simp only [idsL, List.mem_append, not_or] at hm
          rw [c2.frame n hm.2, c1.frame n hm.1]
          have : n ≠ t.id := fun e => hm.1 (e ▸ id_mem_ids t)
          simp [setParent, this]
        · intro n
          rw [c2.label, c1.label]
          unfold setParent; split_ifs <;> rfl
        · intro n hm _
          simp only [idsL, List.mem_append] at hm
          by_cases hts : n ∈ idsL ts
          · exact c2.parents n hts (by simp)
          · rw [c2.frame n hts]
            have hnt : n ∈ ids t := by tauto
            by_cases hid : n = t.id
            · rw [hid, c1.tops t.id (by simp)]; simp [setParent]
            · exact c1.parents n hnt (by simpa using hid)
        · intro n hm; simp at hm
        · intro n hm
          simp only [idsL, List.mem_append] at hm
          by_cases hts : n ∈ idsL ts
          · exact c2.bare n hts
          · rw [c2.frame n hts]
            exact c1.bare n (by tauto)
    intro t h hd hk hn
    cases t with
    | node i cs =>
      simp only [depth] at hd
      simp only [Kids] at hk
      simp only [ids, List.nodup_cons] at hn
      have c := list cs h (by omega) hk.2 hn.2
      simp only [pruneDown, Tree.id, hk.1]
      generalize (cs.map Tree.id).foldl (fun h c => pruneDown f (setParent h c none) c) h = h1 at c ⊢
      have hi : h1 i = h i := c.frame i hn.1
      by_cases hcs : cs = []
      · subst hcs
        simp only [List.map_nil, if_true]
        refine ⟨?_, c.label, ?_, ?_, ?_⟩
        · intro n hm
          exact c.frame n (by simp [idsL])
        · intro n hm hne
          simp [ids, idsL] at hm hne; exact absurd hm hne
        · intro n hm
          rw [c.frame n (by simp [idsL])]
        · intro n hm
          simp [ids, idsL] at hm
          subst hm
          right
          rw [hi, hk.1]; rfl
      · have : cs.map Tree.id ≠ [] := by simpa using hcs
        rw [if_neg this]
        refine ⟨?_, ?_, ?_, ?_, ?_⟩
        · intro n hm
          simp only [ids, List.mem_cons, not_or] at hm
          simp only [setChildren, if_neg hm.1]
          exact c.frame n hm.2
        · intro n
          rw [← c.label n]
          unfold setChildren; split_ifs <;> rfl
        · intro n hm hne
          simp only [List.mem_singleton] at hne
          simp only [ids, List.mem_cons] at hm
          simp only [setChildren, if_neg hne]
          exact c.parents n (by tauto) (by simp)
        · intro n hm
          simp only [List.mem_singleton] at hm
          subst hm
          simp [setChildren, hi]
        · intro n hm
          simp only [ids, List.mem_cons] at hm
          by_cases hni : n = i
          · left; simp [setChildren, hni]
          · simp only [setChildren, if_neg hni]
            exact c.bare n (by tauto)

mutual
theorem sub_spec {v : Nat} : ∀ (t : Tree), v ∈ ids t → (ids t).Nodup →
    ∃ s, sub v t = some s ∧ s.id = v ∧ ids s ⊆ ids t ∧ (ids s).Nodup ∧ depth s ≤ depth t ∧
      (v ≠ t.id → ∀ n ∈ ids s, n ∉ ids (remove v t)) ∧
      (∀ h p, Holds h p t → ∃ q, Holds h q s)
  | .node i cs, hv, hn => by
    simp only [ids, List.nodup_cons] at hn
    simp only [sub]
    by_cases hi : i = v
    · rw [if_pos hi]
      refine ⟨_, rfl, hi, fun _ h => h, by simp only [ids, List.nodup_cons]; exact hn, le_refl _,
        fun h => absurd hi.symm h, fun h p hh => ⟨p, hh⟩⟩
    · rw [if_neg hi]
      have hv' : v ∈ idsL cs := by
        simp only [ids, List.mem_cons] at hv
        rcases hv with h | h
        · exact absurd h.symm hi
        · exact h
      obtain ⟨s, h1, h2, h3, h4, h5, h6, h7⟩ := subL_spec cs hv' hn.2
      refine ⟨s, h1, h2, fun n hn => by simp [ids, h3 hn], h4, by simp only [depth]; omega, ?_, ?_⟩
      · intro _ n hm
        simp only [remove, ids, List.mem_cons, not_or]
        exact ⟨fun e => hn.1 (e ▸ h3 hm), h6 n hm⟩
      · intro h p hh
        simp only [Holds] at hh
        exact h7 h _ hh.2.2.2
theorem subL_spec {v : Nat} : ∀ (ts : List Tree), v ∈ idsL ts → (idsL ts).Nodup →
    ∃ s, subL v ts = some s ∧ s.id = v ∧ ids s ⊆ idsL ts ∧ (ids s).Nodup ∧ depth s ≤ depthL ts ∧
      (∀ n ∈ ids s, n ∉ idsL (removeL v ts)) ∧ (∀ h p, HoldsL h p ts → ∃ q, Holds h q s)
  | [], hv, _ => by simp [idsL] at hv
  | t :: ts, hv, hn => by
    simp only [idsL] at hn
    rw [List.nodup_append] at hn
    obtain ⟨n1, n2, n3⟩ := hn
    simp only [subL]
    by_cases hvt : v ∈ ids t
    · obtain ⟨s, h1, h2, h3, h4, h5, h6, h7⟩ := sub_spec t hvt n1
      have hvts : v ∉ idsL ts := fun hm => n3 v hvt v hm rfl
      rw [h1]
      refine ⟨s, rfl, h2, fun n hn => by simp [idsL, h3 hn], h4, by simp only [depthL]; omega, ?_, ?_⟩
      · intro n hm
        simp only [removeL]
        rw [removeL_absent ts hvts]
        have hnts : n ∉ idsL ts := fun hm' => n3 n (h3 hm) n hm' rfl
        split_ifs with ht
        · exact hnts
        · simp only [idsL, List.mem_append, not_or]
          exact ⟨h6 (fun e => ht e.symm) n hm, hnts⟩
      · intro h p hh
        simp only [HoldsL] at hh
        exact h7 h p hh.1
    · have hvts : v ∈ idsL ts := by
        simp only [idsL, List.mem_append] at hv; tauto
      obtain ⟨s, h1, h2, h3, h4, h5, h6, h7⟩ := subL_spec ts hvts n2
      have hst : sub v t = none := sub_absent t hvt
      rw [hst]
      refine ⟨s, h1, h2, fun n hn => by simp [idsL, h3 hn], h4, by simp only [depthL]; omega, ?_, ?_⟩
      · intro n hm
        simp only [removeL]
        have ht : ¬ t.id = v := fun e => hvt (e ▸ id_mem_ids t)
        rw [if_neg ht, remove_absent t hvt]
        simp only [idsL, List.mem_append, not_or]
        exact ⟨fun hm' => n3 n hm' n (h3 hm) rfl, h6 n hm⟩
      · intro h p hh
        simp only [HoldsL] at hh
        exact h7 h p hh.2
theorem sub_absent {v : Nat} : ∀ (t : Tree), v ∉ ids t → sub v t = none
  | .node i cs, h => by
    simp only [ids, List.mem_cons, not_or] at h
    simp only [sub]
    rw [if_neg (fun e => h.1 e.symm)]
    exact subL_absent cs h.2
theorem subL_absent {v : Nat} : ∀ (ts : List Tree), v ∉ idsL ts → subL v ts = none
  | [], _ => by simp [subL]
  | t :: ts, h => by
    simp only [idsL, List.mem_append, not_or] at h
    simp only [subL, sub_absent t h.1]
    exact subL_absent ts h.2
end

mutual
theorem remove_depth {v : Nat} : ∀ (t : Tree), depth (remove v t) ≤ depth t
  | .node i cs => by
    simp only [remove, depth]
    have := removeL_depth (v := v) cs
    omega
theorem removeL_depth {v : Nat} : ∀ (ts : List Tree), depthL (removeL v ts) ≤ depthL ts
  | [] => by simp [removeL]
  | t :: ts => by
    have h1 := remove_depth (v := v) t
    have h2 := removeL_depth (v := v) ts
    simp only [removeL]
    split_ifs <;> simp only [depthL] <;> omega
end

mutual
theorem parent_stays {h : Heap} {v p : Nat} : ∀ (t : Tree) (pp : Option Nat), Holds h pp t →
    (ids t).Nodup → v ∈ ids t → v ≠ t.id → (h v).parent = some p → p ∈ ids (remove v t)
  | .node i cs, pp, hh, hn, hv, hne, hp => by
    simp only [Holds] at hh
    simp only [ids, List.nodup_cons] at hn
    simp only [ids, List.mem_cons, Tree.id] at hv hne
    have hv' : v ∈ idsL cs := by tauto
    simp only [remove, ids, List.mem_cons]
    by_cases htop : v ∈ cs.map Tree.id
    · left
      obtain ⟨x, hx, hxv⟩ := List.mem_map.mp htop
      have := (holdsL_iff cs).mp hh.2.2.2 x hx
      cases x with
      | node j ds =>
        simp only [Tree.id] at hxv
        subst hxv
        simp only [Holds] at this
        rw [this.1] at hp
        exact (Option.some.inj hp).symm
    · right
      exact parentL_stays cs (some i) hh.2.2.2 hn.2 hv' htop hp
theorem parentL_stays {h : Heap} {v p : Nat} : ∀ (ts : List Tree) (pp : Option Nat), HoldsL h pp ts →
    (idsL ts).Nodup → v ∈ idsL ts → v ∉ ts.map Tree.id → (h v).parent = some p →
    p ∈ idsL (removeL v ts)
  | [], _, _, _, hv, _, _ => by simp [idsL] at hv
  | t :: ts, pp, hh, hn, hv, hne, hp => by
    simp only [HoldsL] at hh
    simp only [idsL] at hn
    rw [List.nodup_append] at hn
    obtain ⟨n1, n2, n3⟩ := hn
    simp only [idsL, List.mem_append] at hv
    simp only [List.map_cons, List.mem_cons, not_or] at hne
    have hnt : ¬ t.id = v := fun e => hne.1 e.symm
    simp only [removeL, if_neg hnt, idsL, List.mem_append]
    by_cases hvt : v ∈ ids t
    · left; exact parent_stays t pp hh.1 n1 hvt hne.1 hp
    · right; exact parentL_stays ts pp hh.2 n2 (by tauto) hne.2 hp
end

/-! ## Properties -/

/-- C39: in a document tree, `prune` of any node but the root succeeds; afterwards the document is
the tree without that node's subtree — so its text is the text of that tree —, the node has no
parent, and no object outside the document has changed.  With `prunechildren` every object of the
subtree is unlinked; without it the subtree remains intact below the node. -/
theorem prune_removes_subtree (h : Heap) (t : Tree) (ht : Holds h none t) (hn : (ids t).Nodup)
    (v : Nat) (hv : v ∈ ids t) (hroot : v ≠ t.id) (f : Nat) (hf : depth t ≤ f) (pc : Bool) :
    ∃ h' s, prune f h v pc = .ok h' ∧ sub v t = some s ∧
      Holds h' none (remove v t) ∧
      text f h' t.id = .ok (render (fun n => (h n).label) (remove v t)) ∧
      (∀ n, n ∉ ids t → h' n = h n) ∧
      (h' v).parent = none ∧
      (pc = true → ∀ n ∈ ids s, (h' n).parent = none ∧ Bare (h' n)) ∧
      (pc = false → Holds h' none s) := by
  obtain ⟨p, cs, a1, a2, a3, a4, a5, a6, a7⟩ := unlink t none ht hn hv hroot
  obtain ⟨s, b1, b2, b3, b4, b5, b6, b7⟩ := sub_spec t hv hn
  obtain ⟨q, hq⟩ := b7 h none ht
  have hps : p ∉ ids s := by
    -- the parent stays in the tree
    intro hm
    apply b6 hroot p hm
    exact parent_stays t none ht hn hv hroot a1
  let h1 := setParent (setChildren h p (some (cs.erase v))) v none
  have hvs : v ∈ ids s := b2 ▸ id_mem_ids s
  have hpv : p ≠ v := fun e => hps (e ▸ hvs)
  have e1 : ∀ n, n ≠ p → n ≠ v → h1 n = h n := by
    intro n h2 h3
    simp [h1, setParent, setChildren, h2, h3]
  have elabel : ∀ n, (h1 n).label = (h n).label := by
    intro n
    simp only [h1, setParent, setChildren]
    split_ifs <;> rfl
  have hkids : Kids h1 s := by
    refine kids_congr s ?_ (holds_kids s q hq)
    intro n hm
    have : n ≠ p := fun e => hps (e ▸ hm)
    simp only [h1, setParent, setChildren]
    split_ifs <;> simp_all
  have hh1 : Holds h1 none (remove v t) := by
    refine holds_congr _ ?_ a6
    intro n hm
    have : n ≠ v := fun e => a7 (e ▸ hm)
    simp [h1, setParent, this]
  have hp1 : (h1 v).parent = none := by simp [h1, setParent]
  have htext : ∀ h' : Heap, Holds h' none (remove v t) → (∀ n, (h' n).label = (h n).label) →
      text f h' t.id = .ok (render (fun n => (h n).label) (remove v t)) := by
    intro h' hh hl
    have := text_holds (remove v t) none f (le_trans (remove_depth t) hf) hh
    rw [remove_id] at this
    rw [this]
    have : (fun n => (h' n).label) = (fun n => (h n).label) := funext hl
    rw [this]
  have hout : ∀ n, n ∉ ids t → h1 n = h n := by
    intro n hm
    exact e1 n (fun e => hm (e ▸ a2)) (fun e => hm (e ▸ hv))
  have hprune : prune f h v pc = .ok (if pc then pruneDown f h1 v else h1) := by
    unfold prune
    simp only [a1, a3, a4, Bool.not_true, Bool.false_eq_true, if_false, if_pos a5]
    rfl
  cases pc with
  | false =>
    refine ⟨h1, s, by simpa using hprune, b1, hh1, htext h1 hh1 elabel, hout, hp1, by simp, ?_⟩
    intro _
    cases s with
    | node j ds =>
      simp only [Tree.id] at b2
      subst b2
      simp only [Holds] at hq ⊢
      refine ⟨hp1, ?_, ?_, ?_⟩
      · simp only [h1, setParent, setChildren, if_true, if_neg (Ne.symm hpv)]; exact hq.2.1
      · simp only [h1, setParent, setChildren, if_true, if_neg (Ne.symm hpv)]; exact hq.2.2.1
      · refine holdsL_congr ds ?_ hq.2.2.2
        intro n hm
        simp only [ids, List.nodup_cons] at b4
        refine (e1 n (fun e => hps (e ▸ by simp [ids, hm])) (fun e => b4.1 (e ▸ hm))).symm
  | true =>
    have c := pruneDown_spec f s h1 (le_trans b5 hf) hkids b4
    rw [b2] at c
    have hh2 : Holds (pruneDown f h1 v) none (remove v t) := by
      refine holds_congr _ ?_ hh1
      intro n hm
      exact (c.frame n (fun hs => b6 hroot n hs hm)).symm
    refine ⟨pruneDown f h1 v, s, by simpa using hprune, b1, hh2,
      htext _ hh2 (fun n => by rw [c.label, elabel]), ?_, ?_, ?_, by simp⟩
    · intro n hm
      rw [c.frame n (fun hs => hm (b3 hs)), hout n hm]
    · rw [c.tops v (by simp)]; exact hp1
    · intro _ n hm
      refine ⟨?_, c.bare n hm⟩
      by_cases hnv : n = v
      · rw [hnv, c.tops v (by simp)]; exact hp1
      · exact c.parents n hm (by simpa using hnv)

/-- Pruning the root (a node without parent) raises nothing and, without `prunechildren`, changes
nothing. -/
theorem prune_root (f : Nat) (h : Heap) (v : Nat) (hv : (h v).parent = none) :
    prune f h v false = .ok h := by
  unfold prune; rw [hv]; rfl

/-- C61: `visit` returns the function's results for every node of the document exactly once, a node
before its children and children in order, leaving out `None`. -/
theorem visit_all {β : Type} (h : Heap) (t : Tree) (ht : Holds h none t) (func : Nat → Option β)
    (f : Nat) (hf : depth t ≤ f) : visit func f h t.id = (ids t).filterMap func :=
  visit_holds func t none f hf ht

/-- C39 refuted for nodes that a parent holds outside its children: the command of an
`EnclosedDeclaration` (publication.py 750-752) has it as parent but is not among its children, so
`prune` raises ValueError — and changes nothing. -/
theorem prune_declaration_command_raises (f : Nat) (h : Heap) (c d : Nat) (cs : List Nat)
    (hp : (h c).parent = some d) (hc : (h d).children = some cs) (hl : (h d).isList = true)
    (hcs : c ∉ cs) (pc : Bool) : prune f h c pc = .error .valueError := by
  unfold prune; simp [hp, hc, hl, hcs]

/-- ... and for the line end of a comment, which is held in a tuple (publication.py 288). -/
theorem prune_comment_newline_raises (f : Nat) (h : Heap) (c d : Nat) (cs : List Nat)
    (hp : (h c).parent = some d) (hc : (h d).children = some cs) (hl : (h d).isList = false)
    (pc : Bool) : prune f h c pc = .error .attributeError := by
  unfold prune; simp [hp, hc, hl]

/-- A pruned inner node can no longer be printed. -/
theorem pruned_not_printable (f : Nat) (h : Heap) (v : Nat) (hc : (h v).children = none) :
    text f h v = .error .typeError := by
  cases f <;> simp [text, hc]

/-! ## Non-vacuity -/

/-- A document: root 0 with children 1, 2, 5; node 2 is an environment with children 3 and 4. -/
def doc : Tree := .node 0 [.node 1 [], .node 2 [.node 3 [], .node 4 []], .node 5 []]

def docHeap : Heap
  | 0 => ⟨none, some [1, 2, 5], true, .wrap [] []⟩
  | 1 => ⟨some 0, some [], false, .wrap ['a'] []⟩
  | 2 => ⟨some 0, some [3, 4], true, .wrap ['<'] ['>']⟩
  | 3 => ⟨some 2, some [], false, .wrap ['b'] []⟩
  | 4 => ⟨some 2, some [], false, .wrap ['c'] []⟩
  | _ => ⟨some 0, some [], false, .wrap ['d'] []⟩

example : Holds docHeap none doc := by
  simp [Holds, HoldsL, doc, docHeap, Tree.id]

example : (ids doc).Nodup ∧ 2 ∈ ids doc ∧ 2 ≠ doc.id ∧ depth doc ≤ 3 := by
  simp [doc, ids, idsL, Tree.id, depth, depthL]

example : text 3 docHeap 0 = .ok ['a', '<', 'b', 'c', '>', 'd'] := by rfl

example : (match prune 3 docHeap 2 true with
    | .ok h => text 3 h 0
    | .error e => .error e) = .ok ['a', 'd'] := by rfl

end Verif.TeXTree
