import Verif.CatVisitProps
import Verif.FieldNode

/-!
# Model of `extractField` (astropysics/objcat.py:787-1082) and C132

The values of a field over a tree of nodes.  `read n fn` is `node[fieldname]`: an exception (one of the four classes the code
catches) or a value, `none` for Python's `None` (an empty field).  Arrays are lists.  `is` between values is equality.
Not modelled: `asrec`, and what numpy makes of fields of different lengths.
-/

namespace Verif.FieldExtract

open Verif.Catalog

variable {V : Type}

/-- The argument `missing`. -/
inductive Missing (V : Type)
  | raise | skip | mask | masked
  | fill (v : V)

/-- What the calls need to know of the nodes: `node[fieldname]`, the converter (errors: one of the four classes), the
number put for missing values, `getattr(node,fieldname).currentobj.source` and `.errors`. -/
structure Env (V : Type) where
  read : Nat → Nat → Except Unit (Option V)
  conv : Option V → Except Unit (Option V)
  zero : V
  source : Nat → Nat → Option String
  errors : Nat → Nat → Option (V × V)

/-- `missingval` (astropysics/objcat.py:866-869). -/
def missingval (e : Env V) : Missing V → V
  | .fill v => v
  | _ => e.zero

/-- `converter(node[fieldname])` (astropysics/objcat.py:882, 900); without converter `conv` is the identity. -/
def converted (e : Env V) (fn n : Nat) : Except Unit (Option V) :=
  match e.read n fn with
  | .ok v => e.conv v
  | .error _ => .error ()

/-- `visitfunc` with a fill value (astropysics/objcat.py:891-896, 908-912). -/
def visitfunc (e : Env V) (m : Missing V) (fn n : Nat) : Option V :=
  match converted e fn n with
  | .ok v => v
  | .error _ => some (missingval e m)

/-- `maskfunc` (astropysics/objcat.py:914-919): without the converter. -/
def maskfunc (e : Env V) (fn n : Nat) : Option Bool :=
  match e.read n fn with
  | .ok _ => some true
  | .error _ => some false

variable [DecidableEq V]

/-- `maskfilter` (astropysics/objcat.py:921-926), as the filter of another visit. -/
def maskfilter {W : Type} (e : Env V) (m : Missing V) (fn : Nat) : Filter V → Filter W
  | .off => .off
  | .pred g => .pred g
  | .value w => .pred (fun n => visitfunc e m fn n ≠ w)

/-- The array of values (astropysics/objcat.py:931-932). -/
def valuesOf (e : Env V) (m : Missing V) (t : Tree) (trav : Trav) (filter : Filter V) (incl : Bool) (fn : Nat) :
    Option (List (Option V)) :=
  visit t (visitfunc e m fn) trav filter incl

/-- The mask (astropysics/objcat.py:933-935); the entries are never `None`. -/
def maskOf (e : Env V) (m : Missing V) (t : Tree) (trav : Trav) (filter : Filter V) (incl : Bool) (fn : Nat) :
    Option (List (Option Bool)) :=
  visit t (maskfunc e fn) trav (maskfilter e m fn filter) incl

/-- The sources (astropysics/objcat.py:946-959). -/
def sourcesOf (e : Env V) (m : Missing V) (t : Tree) (trav : Trav) (filter : Filter V) (incl : Bool) (fn : Nat) :
    Option (List (Option String)) :=
  visit t (fun n => e.source n fn) trav (maskfilter e m fn filter) incl

/-- The errors (astropysics/objcat.py:960-969): `(0,0)` if there are none. -/
def errorsOf (e : Env V) (m : Missing V) (t : Tree) (trav : Trav) (filter : Filter V) (incl : Bool) (fn : Nat) :
    Option (List (Option (V × V))) :=
  visit t (fun n => some ((e.errors n fn).getD (e.zero, e.zero))) trav (maskfilter e m fn filter) incl

/-- Exceptions of `extractField`. -/
inductive Exc
  | notFound | typeError | indexError | traversal
deriving DecidableEq, Repr

/-- Indexing an array with a mask, `a[m]` (astropysics/objcat.py:941-943). -/
def pick {A : Type} (a : List A) (m : List (Option Bool)) : Except Exc (List A) :=
  if a.length = m.length then .ok (((a.zip m).filter (fun p => p.2 = some true)).map (·.1)) else .error .indexError

/-- The nodes at which `visitfunc` is called, in order (C13, C14). -/
def called (t : Tree) (trav : Trav) (filter : Filter V) (incl : Bool) : List Nat :=
  ((order trav t).filter (fun n => incl || n != t.id)).filter (keepNode filter)

/-- `extractFieldAtNode` for one field name (astropysics/objcat.py:787-1057): values, and mask if asked for.  With `missing`
'raise' the first node that cannot be read ends the call; the nodes `visitfunc` is called at are those of `visit`.  With
'skip' and sources the list of sources is indexed by an array (1043-1044), a TypeError. -/
def extract (e : Env V) (m : Missing V) (t : Tree) (trav : Trav) (filter : Filter V) (incl withSources : Bool) (fn : Nat) :
    Except Exc (List (Option V) × Option (List (Option Bool))) :=
  match valuesOf e m t trav filter incl fn, maskOf e m t trav filter incl fn with
  | some vals, some mask =>
    match m with
    | .raise => if (called t trav filter incl).all (fun n => (converted e fn n).isOk) then .ok (vals, none) else .error .notFound
    | .skip => match pick vals mask with
      | .error x => .error x
      | .ok l => if withSources then .error .typeError else .ok (l, none)
    | .fill _ => .ok (vals, none)
    | _ => .ok (vals, some mask)
  | _, _ => .error .traversal

/-- `node.extractField(siblings=True)` (astropysics/objcat.py:1073-1081): the parent's tree without the parent. -/
def extractSiblings (e : Env V) (m : Missing V) (parent : Option Tree) (self : Tree) (trav : Trav) (filter : Filter V)
    (incl withSources : Bool) (fn : Nat) : Except Exc (List (Option V) × Option (List (Option Bool))) :=
  match parent with
  | some p => extract e m p trav filter false withSources fn
  | none => extract e m self trav filter incl withSources fn

/-- What a `FieldNode` of the heap of `Verif.FieldNode` contributes: `node[name]` is its value. -/
def envOf (h : Verif.FieldNode.Heap) (names : Nat → Verif.FieldNode.Str) : Env Int where
  read n fn := match Verif.FieldNode.getItem h n (.name (names fn)) with
    | .ok (_, v) => .ok (v.map (·.val))
    | .error _ => .error ()
  conv v := .ok v
  zero := 0
  source n fn := match h.attr n (names fn) with
    | .fld f => (Verif.Field.current (h.field f)).map (·.src)
    | _ => none
  errors _ _ := none

/-! ## Specification -/

/-- The number put where there is no value: the one given, else zero. -/
def fillWith (e : Env V) : Missing V → V
  | .fill v => v
  | .raise => e.zero
  | .skip => e.zero
  | .mask => e.zero
  | .masked => e.zero

/-- The value of a node: the field's, converted; the filling number if there is no such field or the conversion fails. -/
def valueAt (e : Env V) (m : Missing V) (fn n : Nat) : Option V :=
  match e.read n fn with
  | .error _ => some (fillWith e m)
  | .ok v => match e.conv v with
    | .ok w => w
    | .error _ => some (fillWith e m)

/-- Nodes a call looks at: all in the order of the traversal, with or without the start, that a callable filter accepts. -/
def looked (t : Tree) (trav : Trav) (filter : Filter V) (incl : Bool) : List Nat :=
  ((order trav t).filter (fun n => incl || n != t.id)).filter (fun n => match filter with
    | .pred g => g n
    | _ => true)

/-- A node has no usable value: no such field, or the conversion fails. -/
def Unusable (e : Env V) (fn n : Nat) : Prop :=
  (∃ x, e.read n fn = .error x) ∨ ∃ v x, e.read n fn = .ok v ∧ e.conv v = .error x

/-- The nodes whose value is asked for: in the order of the traversal, with or without the start, accepted by the filter. -/
def selected (e : Env V) (m : Missing V) (t : Tree) (trav : Trav) (filter : Filter V) (incl : Bool) (fn : Nat) : List Nat :=
  ((order trav t).filter (fun n => incl || n != t.id)).filter (fun n => match filter with
    | .off => true
    | .pred g => g n
    | .value w => valueAt e m fn n ≠ w)

/-- The node has the field. -/
def hasField (e : Env V) (fn n : Nat) : Bool :=
  match e.read n fn with
  | .ok _ => true
  | .error _ => false

theorem visitfunc_eq (e : Env V) (m : Missing V) (fn : Nat) : visitfunc e m fn = valueAt e m fn := by
  funext n
  have hm : missingval e m = fillWith e m := by cases m <;> rfl
  unfold visitfunc converted valueAt
  rw [hm]
  cases e.read n fn with
  | error x => rfl
  | ok v => simp only

theorem called_eq (t : Tree) (trav : Trav) (filter : Filter V) (incl : Bool) : called t trav filter incl = looked t trav filter incl := by
  unfold called looked
  cases filter <;> rfl

theorem unusable_iff (e : Env V) (fn n : Nat) : Unusable e fn n ↔ ∃ x, converted e fn n = .error x := by
  unfold Unusable converted
  cases hr : e.read n fn with
  | error x => simp
  | ok v => simp

theorem filter_map_comm {A B : Type} (f : A → B) (p : B → Bool) (l : List A) :
    (l.map f).filter p = (l.filter (fun x => p (f x))).map f := by
  induction l with
  | nil => rfl
  | cons a l ih => simp only [List.map_cons, List.filter_cons, ih]; split <;> simp_all

section
variable (e : Env V) (m : Missing V) (t : Tree) (hn : (pre t).Nodup) (trav : Trav) (ht : trav.Ordered)
  (filter : Filter V) (incl : Bool) (hlev : trav = .level → incl = true) (fn : Nat)
include hn ht hlev

/-- **C132**: the values, in the order of the traversal: each selected node's value, the filling number where the field is
missing or the converter fails; with a callable filter, values that are `None` are left out. -/
theorem values_exact :
    valuesOf e m t trav filter incl fn = some (((selected e m t trav filter incl fn).map (valueAt e m fn)).filter
      (fun v => match filter with
        | .pred _ => v ≠ none
        | _ => true)) := by
  unfold valuesOf selected
  rw [visitfunc_eq, visit_spec t hn _ trav ht filter incl hlev]
  cases filter with
  | off => simp [keepNode, keepVal]
  | pred g => rfl
  | value w =>
    simp only [keepNode, keepVal, List.filter_true, filter_map_comm]

/-- The other visits go through the selected nodes too. -/
theorem other_exact {W : Type} [DecidableEq W] (f : Nat → Option W) :
    visit t f trav (maskfilter e m fn filter) incl = some (((selected e m t trav filter incl fn).map f).filter
      (fun v => match filter with
        | .off => true
        | _ => v ≠ none)) := by
  rw [visit_spec t hn _ trav ht _ incl hlev]
  unfold selected
  cases filter with
  | off => simp [keepNode, keepVal, maskfilter]
  | pred g => rfl
  | value w => simp only [maskfilter, visitfunc_eq]; rfl

/-- **C132**: the mask says for exactly the selected nodes, in the same order, whether they have the field (whatever the
converter does). -/
theorem mask_exact :
    maskOf e m t trav filter incl fn =
      some ((selected e m t trav filter incl fn).map (fun n => some (hasField e fn n))) := by
  unfold maskOf
  rw [other_exact e m t hn trav ht filter incl hlev fn]
  have e2 : maskfunc e fn = fun n => some (hasField e fn n) := by
    funext n
    unfold maskfunc hasField
    split <;> simp_all
  rw [e2]
  congr 1
  refine List.filter_eq_self.mpr ?_
  intro v hv
  obtain ⟨n, _, rfl⟩ := List.mem_map.mp hv
  cases filter <;> simp

/-- **C132**: errors belong to exactly the selected nodes. -/
theorem errors_exact :
    errorsOf e m t trav filter incl fn =
      some ((selected e m t trav filter incl fn).map (fun n => some ((e.errors n fn).getD (e.zero, e.zero)))) := by
  unfold errorsOf
  rw [other_exact e m t hn trav ht filter incl hlev fn]
  congr 1
  refine List.filter_eq_self.mpr ?_
  intro v hv
  obtain ⟨n, _, rfl⟩ := List.mem_map.mp hv
  cases filter <;> simp

/-- **C132**: values and mask belong to the same nodes, place by place, exactly if the filter is not callable or no selected
node has the value `None`; otherwise the values are fewer. -/
theorem aligned_iff (vals : List (Option V)) (mask : List (Option Bool))
    (hv : valuesOf e m t trav filter incl fn = some vals) (hm : maskOf e m t trav filter incl fn = some mask) :
    vals.length = mask.length ↔
      ((∃ g, filter = .pred g) → ∀ n ∈ selected e m t trav filter incl fn, valueAt e m fn n ≠ none) := by
  rw [values_exact e m t hn trav ht filter incl hlev fn] at hv
  rw [mask_exact e m t hn trav ht filter incl hlev fn] at hm
  cases hv; cases hm
  cases filter with
  | off => simp
  | value w => simp
  | pred g =>
    rw [List.length_map, ← List.length_map (f := valueAt e m fn), List.length_filter_eq_length_iff]
    simp

/-- **C132**: the same for the sources: they are those of the values exactly if there is no filter, or every selected node
has a source. -/
theorem sources_length_iff (srcs : List (Option String)) (hs : sourcesOf e m t trav filter incl fn = some srcs) :
    srcs.length = (selected e m t trav filter incl fn).length ↔
      (filter = .off ∨ ∀ n ∈ selected e m t trav filter incl fn, e.source n fn ≠ none) := by
  unfold sourcesOf at hs
  rw [other_exact e m t hn trav ht filter incl hlev fn] at hs
  cases hs
  cases filter with
  | off => simp
  | pred g =>
    rw [← List.length_map (f := fun n => e.source n fn), List.length_filter_eq_length_iff]
    simp
  | value w =>
    rw [← List.length_map (f := fun n => e.source n fn), List.length_filter_eq_length_iff]
    simp

/-- **C132**, `missing='skip'`: exactly the values of the selected nodes that have the field, in order (when no selected
node has the value `None` or the filter is not callable; otherwise the call fails). -/
theorem skip_exact (hnone : (∃ g, filter = .pred g) → ∀ n ∈ selected e .skip t trav filter incl fn, valueAt e .skip fn n ≠ none) :
    extract e .skip t trav filter incl false fn =
      .ok (((selected e .skip t trav filter incl fn).filter (hasField e fn)).map (valueAt e .skip fn), none) := by
  have hv := values_exact e .skip t hn trav ht filter incl hlev fn
  have hm := mask_exact e .skip t hn trav ht filter incl hlev fn
  have hv' : valuesOf e .skip t trav filter incl fn = some ((selected e .skip t trav filter incl fn).map (valueAt e .skip fn)) := by
    rw [hv]
    congr 1
    refine List.filter_eq_self.mpr ?_
    intro v hv
    obtain ⟨n, hn', rfl⟩ := List.mem_map.mp hv
    cases filter with
    | off => rfl
    | value w => rfl
    | pred g => simpa using hnone ⟨g, rfl⟩ n hn'
  unfold extract
  rw [hv', hm]
  simp only [pick, List.length_map, if_true, Bool.false_eq_true, if_false]
  congr 2
  generalize selected e .skip t trav filter incl fn = l
  induction l with
  | nil => rfl
  | cons a l ih =>
    simp only [List.map_cons, List.zip_cons_cons, List.filter_cons]
    cases hasField e fn a <;> simp [ih]

/-- **C132**, `missing='raise'`: the call fails exactly if some node it looks at does not have the field (or its value
cannot be converted). -/
theorem raise_exact : (extract e .raise t trav filter incl false fn = .error .notFound ↔
    ∃ n ∈ looked t trav filter incl, Unusable e fn n) := by
  simp only [unusable_iff, ← called_eq]
  unfold extract
  rw [values_exact e .raise t hn trav ht filter incl hlev fn, mask_exact e .raise t hn trav ht filter incl hlev fn]
  simp only
  by_cases h : (called t trav filter incl).all (fun n => (converted e fn n).isOk) = true
  · simp only [h, if_true, reduceCtorEq, false_iff]
    rintro ⟨n, hn', x, hx⟩
    have := List.all_eq_true.mp h n hn'
    rw [hx] at this; cases this
  · simp only [h, Bool.false_eq_true, if_false, true_iff]
    rw [List.all_eq_true] at h
    by_contra hc
    apply h
    intro n hn'
    cases hx : converted e fn n with
    | ok v => rfl
    | error x => exact absurd ⟨n, hn', x, hx⟩ hc

end

/-- Skipping and asking for sources always fails, whatever the nodes. -/
theorem skip_sources_fails (e : Env V) (t : Tree) (trav : Trav) (filter : Filter V) (incl : Bool) (fn : Nat) :
    ∃ x, extract e .skip t trav filter incl true fn = .error x := by
  unfold extract
  split
  · simp only
    split
    · exact ⟨_, rfl⟩
    · exact ⟨_, rfl⟩
  · exact ⟨_, rfl⟩

/-- Siblings: the nodes below the parent, the parent itself not among them. -/
theorem siblings_exact (e : Env V) (p s : Tree) (hn : (pre p).Nodup) (trav : Trav) (ht : trav.Ordered)
    (hlev : trav ≠ .level) (incl : Bool) (fn : Nat) (v : V) :
    extractSiblings e (.fill v) (some p) s trav .off incl false fn =
      .ok (((order trav p).filter (fun n => n != p.id)).map (valueAt e (.fill v) fn), none) := by
  show extract e (.fill v) p trav .off false false fn = _
  unfold extract
  rw [values_exact e (.fill v) p hn trav ht .off false (fun h => absurd h hlev) fn,
    mask_exact e (.fill v) p hn trav ht .off false (fun h => absurd h hlev) fn]
  simp [selected]

/-! ## Examples and counterexamples -/

/-- Nodes 0 (no field), 1 and 2 (values), 3 (field present but empty). -/
def demoEnv : Env Int where
  read n _ := if n = 0 then .error () else if n = 3 then .ok none else .ok (some (10 * n))
  conv v := .ok v
  zero := 0
  source n _ := if n = 1 ∨ n = 2 then some "s" else none
  errors _ _ := none

def demoTree3 : Tree := .node 0 [.node 1 [.node 3 []], .node 2 []]

/-- An empty field counts as present: it is not masked and not skipped. -/
theorem empty_not_skipped : extract demoEnv .skip demoTree3 .pre .off true false 0 =
    .ok ([some 10, none, some 20], none) := by decide +kernel

/-- With a callable filter the mask is longer than the values as soon as a field is empty, and skipping fails. -/
theorem callable_misaligned :
    extract demoEnv .mask demoTree3 .pre (.pred fun _ => true) true false 0 =
      .ok ([some 0, some 10, some 20], some [some false, some true, some true, some true]) ∧
    extract demoEnv .skip demoTree3 .pre (.pred fun _ => true) true false 0 = .error .indexError := by
  decide +kernel

/-- With a filter the sources do not belong to the values. -/
theorem sources_misaligned :
    sourcesOf demoEnv .mask demoTree3 .pre (.value (some 10)) true 0 = some [some "s"] ∧
    valuesOf demoEnv .mask demoTree3 .pre (.value (some 10)) true 0 = some [some 0, none, some 20] := by
  decide +kernel

example : extract demoEnv .skip demoTree3 .post .off true false 0 = .ok ([none, some 10, some 20], none) := by decide +kernel

example : (extract demoEnv .raise demoTree3 .post .off true false 0 = .error .notFound) ∧
    (extract demoEnv .raise demoTree3 .post .off false false 0 = .ok ([none, some 10, some 20], none)) := by decide +kernel

end Verif.FieldExtract
