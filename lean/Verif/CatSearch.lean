import Verif.CatVisitProps
import Mathlib.Data.List.Dedup

/-!
# C137: searching a catalog (astropysics/objcat.py:1082-1096, 2625-2648)

Nodes are those of `Verif.Catalog`; what a node has under a field name is a parameter.
-/

namespace Verif.CatSearch

open Verif.Catalog

variable {V : Type} [DecidableEq V]

/-- What `getattr(node,fieldname)` gives: nothing, something that cannot be called, a field with a current value, or an empty
field, which raises IndexError when it is called (astropysics/objcat.py:1434-1438). -/
inductive Attr (V : Type)
  | absent | plain | value (v : V) | empty
deriving DecidableEq, Repr

/-- `visitfunc` (astropysics/objcat.py:1089-1093) where it does not raise. -/
def matches' (a : Nat → Attr V) (v : V) (n : Nat) : Option Nat :=
  match a n with
  | .value w => if w = v then some n else none
  | _ => none

/-- Does `visitfunc` raise? -/
def raises (a : Nat → Attr V) (n : Nat) : Bool :=
  match a n with
  | .empty => true
  | _ => false

/-- The same for an entry of the list of nodes visited. -/
def raisesAt (a : Nat → Attr V) : Option Nat → Bool
  | some n => raises a n
  | none => false

/-- `getFieldValueNodesAtNode` (astropysics/objcat.py:1082-1095) with the default traversal, as called by
`Catalog.getFieldValueNodes` and `Catalog.locateName` (2637-2648) with `includeself` false; an exception of `visitfunc` at any
node visited ends it. -/
def search (a : Nat → Attr V) (t : Tree) (v : V) (incl : Bool) : Except Unit (List (Option Nat)) :=
  match visit t (fun n => some n) .post .off incl, visit t (matches' a v) .post (.value none) incl with
  | some visited, some found => if visited.any (raisesAt a) then .error () else .ok found
  | _, _ => .error ()

/-- `Catalog.getFieldNames` (astropysics/objcat.py:2627-2635): `names n` are the `fieldnames` of node `n`, empty if it has
none. -/
def fieldNames (names : Nat → List String) (t : Tree) : List String :=
  match visit t (fun n => some (names n)) .post .off true with
  | some l => (l.flatMap (fun x => x.getD [])).dedup
  | none => []

/-- The nodes below the start. -/
def Below (t : Tree) (n : Nat) : Prop := n ∈ pre t ∧ n ≠ t.id

/-- Does the field of the node have the value? -/
def has (a : Nat → Attr V) (v : V) (n : Nat) : Bool := decide (a n = .value v)

theorem matches_eq (a : Nat → Attr V) (v : V) (n : Nat) : matches' a v n = if has a v n then some n else none := by
  unfold matches' has
  cases h : a n with
  | value w => by_cases hw : w = v <;> simp [hw]
  | absent => simp
  | plain => simp
  | empty => simp

theorem found_eq (a : Nat → Attr V) (v : V) (l : List Nat) :
    (l.map (matches' a v)).filter (fun v => decide (v ≠ none)) = (l.filter (has a v)).map some := by
  induction l with
  | nil => rfl
  | cons n l ih =>
    cases hh : has a v n with
    | true =>
      rw [List.filter_cons_of_pos hh, List.map_cons, List.map_cons, matches_eq, hh, if_pos rfl,
        List.filter_cons_of_pos (by simp), ih]
    | false =>
      rw [List.filter_cons_of_neg (by simp [hh]), List.map_cons, matches_eq, hh]
      simpa using ih

/-- **C137**: if no field of that name below the start is empty, exactly the nodes whose field has the value are found, each
once, in postorder. -/
theorem search_exact (a : Nat → Attr V) (t : Tree) (hn : (pre t).Nodup) (v : V) (he : ∀ n, Below t n → a n ≠ .empty) :
    search a t v false = .ok ((((post t).filter (fun n => n != t.id)).filter (has a v)).map some) ∧
    ∀ n, some n ∈ (((post t).filter (fun n => n != t.id)).filter (has a v)).map some ↔ Below t n ∧ a n = .value v := by
  have h1 := visit_spec t hn (fun n => some n) .post trivial .off false (by simp)
  have h2 := visit_spec t hn (matches' a v) .post trivial (.value none) false (by simp)
  have hperm : ∀ n, n ∈ post t ↔ n ∈ pre t := fun n => (post_perm t).mem_iff
  constructor
  · simp only [search, h1, h2]
    rw [if_neg]
    · congr 1
      have hk : ∀ l : List Nat, l.filter (keepNode (.value (none : Option Nat))) = l := fun l => List.filter_eq_self.mpr (fun _ _ => rfl)
      rw [hk]
      simp only [Bool.false_or]
      exact found_eq a v _
    · rw [Bool.not_eq_true, List.any_eq_false]
      intro x hx
      simp only [List.mem_filter, List.mem_map] at hx
      obtain ⟨⟨n, ⟨⟨hp, hne⟩, _⟩, rfl⟩, _⟩ := hx
      have hb : Below t n := ⟨(hperm n).mp hp, by simpa using hne⟩
      have := he n hb
      simp only [raisesAt, raises]
      cases hc : a n <;> simp_all
  · intro n
    simp only [List.mem_map, List.mem_filter, Option.some.injEq, exists_eq_right, has, decide_eq_true_eq, hperm, Below]
    simp

/-- **C137**, limit: one empty field of that name anywhere below the start makes the search fail. -/
theorem search_fails_iff (a : Nat → Attr V) (t : Tree) (hn : (pre t).Nodup) (v : V) :
    search a t v false = .error () ↔ ∃ n, Below t n ∧ a n = .empty := by
  constructor
  · intro h
    by_contra hc
    have := (search_exact a t hn v (fun n hb he => hc ⟨n, hb, he⟩)).1
    rw [this] at h
    cases h
  · rintro ⟨n, ⟨hp, hne⟩, he⟩
    have h1 := visit_spec t hn (fun n => some n) .post trivial .off false (by simp)
    have h2 := visit_spec t hn (matches' a v) .post trivial (.value none) false (by simp)
    simp only [search, h1, h2]
    rw [if_pos]
    rw [List.any_eq_true]
    refine ⟨some n, ?_, by simp [raisesAt, raises, he]⟩
    simp only [List.mem_filter, List.mem_map, keepVal, and_true]
    refine ⟨n, ⟨⟨(post_perm t).mem_iff.mpr hp, by simpa using hne⟩, rfl⟩, rfl⟩

/-- **C137**: `getFieldNames` gives exactly the names of the fields of the nodes of the catalog, each once. -/
theorem fieldNames_exact (names : Nat → List String) (t : Tree) (hn : (pre t).Nodup) :
    (fieldNames names t).Nodup ∧ ∀ s, s ∈ fieldNames names t ↔ ∃ n ∈ pre t, s ∈ names n := by
  have h := visit_all t hn (fun n => some (names n)) .post trivial
  simp only [fieldNames, h]
  refine ⟨List.nodup_dedup _, fun s => ?_⟩
  simp only [List.mem_dedup, List.mem_flatMap, List.mem_map, order]
  constructor
  · rintro ⟨_, ⟨n, hn, rfl⟩, hs⟩
    exact ⟨n, (post_perm t).mem_iff.mp hn, hs⟩
  · rintro ⟨n, hn, hs⟩
    exact ⟨_, ⟨n, (post_perm t).mem_iff.mpr hn, rfl⟩, hs⟩

/-- A catalog of three nodes; nodes 1 and 3 are called `m31`. -/
def demoAttr : Nat → Attr String
  | 0 => .plain
  | 1 => .value "m31"
  | 2 => .value "m33"
  | _ => .value "m31"

/-- Its tree. -/
def demoTree' : Tree := .node 0 [.node 1 [.node 3 []], .node 2 []]

example : search demoAttr demoTree' "m31" false = .ok [some 3, some 1] := by decide +kernel

/-- A fourth node without a name: nothing can be located. -/
theorem empty_name_breaks_search :
    search (fun n => if n = 2 then .empty else demoAttr n) demoTree' "m31" false = .error () := by decide +kernel

end Verif.CatSearch
