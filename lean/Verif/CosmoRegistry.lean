import Mathlib.Data.List.Basic
import Mathlib.Data.List.Infix
import Mathlib.Tactic.Linarith

/-!
# The current cosmology (astropysics/constants.py 172-234, 497-614)

`choose_cosmology` exports the parameters of a cosmology object into the namespace of the `constants` module; the other functions
of the library read them there.  The model keeps that namespace, the cosmology objects with their attributes, which of them is
current, and the registry of classes.
-/

namespace Verif.CosmoRegistry

variable {V : Type}

/-- A subclass of `Cosmology`: its name, the parameter names of the class and its bases (`params`, constants.py 199-213), reading
an attribute (`none`: raises) from what is stored on the object, and which attributes can be assigned. -/
structure Cls (V : Type) where
  name : List Char
  params : List String
  eval : (String → Option V) → String → Option V
  settable : String → Bool

/-- A cosmology object. -/
structure Obj (V : Type) where
  cls : Cls V
  attrs : String → Option V
  auto : Bool

/-- The module: its variables, the objects made so far, the current one and the registry. -/
structure State (V : Type) where
  globals : String → Option V
  heap : List (Obj V)
  cur : Nat
  registry : List (List Char × Cls V)

inductive Err
  | key | attribute | other
deriving DecidableEq, Repr

/-- Reading a parameter. -/
def Obj.get (o : Obj V) (p : String) : Option V := o.cls.eval o.attrs p

/-- `_exportParams`, constants.py 240-242: all parameters are read first; `none` if one of them raises. -/
def exportParams (o : Obj V) (g : String → Option V) : Option (String → Option V) :=
  if o.cls.params.all (fun p => (o.get p).isSome) then some (fun n => if n ∈ o.cls.params then o.get n else g n) else none

/-- `_removeParams`, constants.py 244-250. -/
def removeParams (o : Obj V) (g : String → Option V) : String → Option V := fun n => if n ∈ o.cls.params then none else g n

/-- `name.lower().replace('cosmology','')`: the removal of the occurrences of a word, left to right. -/
def strip (pat : List Char) : Nat → List Char → List Char
  | _, [] => []
  | k + 1, _ :: cs => strip pat k cs
  | 0, c :: cs => if pat.isPrefixOf (c :: cs) then strip pat (pat.length - 1) cs else c :: strip pat 0 cs

def lower (s : List Char) : List Char := s.map Char.toLower

def word : List Char := "cosmology".toList

/-- The key of a class, constants.py 507-509. -/
def key (name : List Char) : List Char := strip word 0 (lower name)

/-- Writing a dictionary item. -/
def put (r : List (List Char × Cls V)) (k : List Char) (c : Cls V) : List (List Char × Cls V) := (k, c) :: r

/-- `register_cosmology(cls,name)` for a class, constants.py 500-516; an empty name or None means the class name. -/
def register (s : State V) (c : Cls V) (name : List Char) : State V :=
  { s with registry := put s.registry (key (if name = [] then c.name else name)) c }

def lookup (r : List (List Char × Cls V)) (k : List Char) : Option (Cls V) := (r.find? (fun e => e.1 == k)).map (·.2)

/-- `get_cosmology(name)`, constants.py 583-593. -/
def getCosmology (s : State V) (name : List Char) : Option (Cls V) := lookup s.registry name

/-- `__setattr__`, constants.py 252-255: assign, and export if the object follows. -/
def setAttr (s : State V) (i : Nat) (n : String) (v : V) : State V × Option Err :=
  match s.heap[i]? with
  | none => (s, some .other)
  | some o =>
    if o.cls.settable n then
      let o' := { o with attrs := fun m => if m = n then some v else o.attrs m }
      let s' := { s with heap := s.heap.set i o' }
      if o.auto then
        match exportParams o' s.globals with
        | some g => ({ s' with globals := g }, none)
        | none => (s', some .other)
      else (s', none)
    else (s, some .attribute)

/-- `update_cosmology()`, constants.py 595-600. -/
def update (s : State V) : State V × Option Err :=
  match s.heap[s.cur]? with
  | none => (s, some .other)
  | some o =>
    match exportParams o s.globals with
    | some g => ({ s with globals := g }, none)
    | none => (s, some .other)

def setAuto (h : List (Obj V)) (i : Nat) (b : Bool) : List (Obj V) :=
  match h[i]? with
  | none => h
  | some o => h.set i { o with auto := b }

/-- `c._autoupdate = bool(autoupdate)`, constants.py 576: an assignment like any other, so it exports if the flag becomes true. -/
def assignAuto (s : State V) (i : Nat) (b : Bool) : State V × Option Err :=
  let s' := { s with heap := setAuto s.heap i b }
  match s'.heap[i]? with
  | none => (s, some .other)
  | some o =>
    if b then
      match exportParams o s'.globals with
      | some g => ({ s' with globals := g }, none)
      | none => (s', some .other)
    else (s', none)

/-- The body of `choose_cosmology` once the object is there, constants.py 566-578: the old parameters are removed, the old object
stops following, and if the new one cannot be exported the old one is exported again (any exception is swallowed there). -/
def switchTo (s : State V) (c : Nat) (auto : Bool) : State V × Option Err :=
  match s.heap[s.cur]?, s.heap[c]? with
  | some old, some new =>
    let g1 := removeParams old s.globals
    let h1 := setAuto s.heap s.cur false
    match exportParams new g1 with
    | some g2 => assignAuto { s with globals := g2, heap := h1, cur := c } c auto
    | none =>
      match exportParams old g1 with
      | some g3 => assignAuto { s with globals := g3, heap := h1 } c auto
      | none => ({ s with globals := g1, heap := h1 }, some .other)
  | _, _ => (s, some .other)

/-- `choose_cosmology(name)`, constants.py 558-559: the class is looked up under the lower-case name and called. -/
def chooseName (s : State V) (name : List Char) (auto : Bool) : State V × Option Err :=
  match lookup s.registry (lower name) with
  | none => (s, some .key)
  | some c => switchTo { s with heap := s.heap ++ [⟨c, fun _ => none, false⟩] } s.heap.length auto

/-- `choose_cosmology(obj)`, constants.py 560-563: its class is registered under its own name if it is not yet there
(`known` says whether it is; the theorems hold for both). -/
def chooseObj (s : State V) (i : Nat) (auto : Bool) (known : Bool) : State V × Option Err :=
  match s.heap[i]? with
  | none => (s, some .other)
  | some o =>
    let s := if known then s else register s o.cls []
    switchTo s i auto

/-- Making an object without choosing it. -/
def make (s : State V) (c : Cls V) : State V := { s with heap := s.heap ++ [⟨c, fun _ => none, false⟩] }

/-- What a user can do. `known` is whether the class is among the values of the registry. -/
inductive Op (V : Type)
  | make (c : Cls V)
  | register (c : Cls V) (name : List Char)
  | chooseName (name : List Char) (auto : Bool)
  | chooseObj (i : Nat) (auto known : Bool)
  | set (i : Nat) (n : String) (v : V)
  | update

def step (s : State V) : Op V → State V × Option Err
  | .make c => (make s c, none)
  | .register c name => (register s c name, none)
  | .chooseName name auto => chooseName s name auto
  | .chooseObj i auto known => chooseObj s i auto known
  | .set i n v => setAttr s i n v
  | .update => update s

def run (s : State V) (ops : List (Op V)) : State V := ops.foldl (fun s o => (step s o).1) s

/-! ## Specification -/

/-- Reading a parameter of the class never raises, whatever is stored. -/
def Cls.Total (c : Cls V) : Prop := ∀ a, ∀ p ∈ c.params, (c.eval a p).isSome

/-- The classes a history brings in. -/
def Op.classes : Op V → List (Cls V)
  | .make c => [c]
  | .register c _ => [c]
  | _ => []

/-- The module shows the current cosmology: every other name has the value `base` gives it, and every parameter of the current
object has a value, its own if the object follows. -/
structure Shows (base : String → Option V) (s : State V) (o : Obj V) : Prop where
  cur : s.heap[s.cur]? = some o
  others : ∀ n, n ∉ o.cls.params → s.globals n = base n
  present : ∀ p ∈ o.cls.params, (s.globals p).isSome
  follows : o.auto → ∀ p ∈ o.cls.params, s.globals p = o.get p

/-- Only the current object follows. -/
def OneFollows (s : State V) : Prop := ∀ i o, s.heap[i]? = some o → o.auto → i = s.cur

/-- All classes around are total, and none of their parameters is otherwise the name of a module variable. -/
def Clean (base : String → Option V) (s : State V) : Prop :=
  (∀ o ∈ s.heap, o.cls.Total ∧ ∀ p ∈ o.cls.params, base p = none) ∧
  (∀ e ∈ s.registry, e.2.Total ∧ ∀ p ∈ e.2.params, base p = none)

/-! ## Lemmas -/

theorem export_total (o : Obj V) (h : o.cls.Total) (g : String → Option V) :
    exportParams o g = some (fun n => if n ∈ o.cls.params then o.get n else g n) := by
  unfold exportParams
  rw [if_pos]
  rw [List.all_eq_true]
  intro p hp
  exact h _ p hp

theorem setAuto_get (h : List (Obj V)) (i : Nat) (b : Bool) (j : Nat) :
    (setAuto h i b)[j]? = if j = i then (h[j]?).map (fun o => { o with auto := b }) else h[j]? := by
  unfold setAuto
  cases hi : h[i]? with
  | none =>
    simp only
    split
    · subst ‹j = i›; rw [hi]; rfl
    · rfl
  | some o =>
    simp only
    rw [List.getElem?_set]
    have hlt : i < h.length := by
      by_contra hn
      rw [List.getElem?_eq_none (by omega)] at hi
      cases hi
    by_cases hij : j = i
    · subst hij
      rw [if_pos rfl, if_pos rfl, if_pos hlt, hi]; rfl
    · rw [if_neg (fun h' => hij h'.symm), if_neg hij]

theorem setAuto_length (h : List (Obj V)) (i : Nat) (b : Bool) : (setAuto h i b).length = h.length := by
  unfold setAuto
  split
  · rfl
  · simp

theorem setAuto_mem (h : List (Obj V)) (i : Nat) (b : Bool) (o : Obj V) (ho : o ∈ setAuto h i b) :
    ∃ o' ∈ h, o'.cls = o.cls := by
  obtain ⟨j, hj⟩ := List.mem_iff_getElem?.1 ho
  rw [setAuto_get] at hj
  split at hj
  · cases hh : h[j]? with
    | none => rw [hh] at hj; simp at hj
    | some o' =>
      rw [hh] at hj
      simp only [Option.map_some, Option.some.injEq] at hj
      exact ⟨o', List.mem_of_getElem? hh, by rw [← hj]⟩
  · exact ⟨o, List.mem_of_getElem? hj, rfl⟩

/-- Switching between total classes: the new object is current, its parameters are in the module with its values, the old
parameters are gone and everything else is as it was. -/
theorem switchTo_total (base : String → Option V) (s : State V) (old new : Obj V) (c : Nat) (auto : Bool)
    (hs : Shows base s old) (hf : OneFollows s) (hc : Clean base s) (hn : s.heap[c]? = some new) :
    (switchTo s c auto).2 = none ∧ (switchTo s c auto).1.cur = c ∧
    (switchTo s c auto).1.registry = s.registry ∧
    (switchTo s c auto).1.heap = setAuto (setAuto s.heap s.cur false) c auto ∧
    (∀ n, (switchTo s c auto).1.globals n = if n ∈ new.cls.params then new.get n else base n) := by
  have hno := hc.1 new (List.mem_of_getElem? hn)
  have holdc := hc.1 old (List.mem_of_getElem? hs.cur)
  unfold switchTo
  rw [hs.cur, hn]
  simp only
  rw [export_total new hno.1]
  simp only [assignAuto]
  -- the object after the two assignments of the flag
  have hh : (setAuto (setAuto s.heap s.cur false) c auto)[c]? = some { new with auto := auto } := by
    rw [setAuto_get, if_pos rfl, setAuto_get]
    split
    · rw [hn]; rfl
    · rw [hn]; rfl
  rw [hh]
  simp only
  have hbase : ∀ n, n ∉ new.cls.params → removeParams old s.globals n = base n := by
    intro n _
    unfold removeParams
    split
    · exact (holdc.2 n ‹_›).symm
    · exact hs.others n ‹_›
  have hg : ∀ n, (if n ∈ new.cls.params then new.get n else removeParams old s.globals n) =
      if n ∈ new.cls.params then new.get n else base n := by
    intro n
    split
    · rfl
    · exact hbase n ‹_›
  cases auto with
  | false =>
    simp only [Bool.false_eq_true, if_false]
    exact ⟨trivial, trivial, trivial, trivial, hg⟩
  | true =>
    simp only [if_true]
    rw [export_total _ (by exact hno.1)]
    refine ⟨rfl, rfl, rfl, rfl, ?_⟩
    intro n
    show (if n ∈ new.cls.params then new.get n else (if n ∈ new.cls.params then new.get n else removeParams old s.globals n)) = _
    split
    · rfl
    · exact hbase n ‹_›

theorem switchTo_inv (base : String → Option V) (s : State V) (old new : Obj V) (c : Nat) (auto : Bool)
    (hs : Shows base s old) (hf : OneFollows s) (hc : Clean base s) (hn : s.heap[c]? = some new) :
    (∃ o, o.cls = new.cls ∧ o.attrs = new.attrs ∧ o.auto = auto ∧ Shows base (switchTo s c auto).1 o) ∧
    OneFollows (switchTo s c auto).1 ∧ Clean base (switchTo s c auto).1 := by
  obtain ⟨_, h2, h3, h4, h5⟩ := switchTo_total base s old new c auto hs hf hc hn
  have hno := hc.1 new (List.mem_of_getElem? hn)
  have hh : (setAuto (setAuto s.heap s.cur false) c auto)[c]? = some { new with auto := auto } := by
    rw [setAuto_get, if_pos rfl, setAuto_get]
    split
    · rw [hn]; rfl
    · rw [hn]; rfl
  refine ⟨⟨{ new with auto := auto }, rfl, rfl, rfl, ?_⟩, ?_, ?_⟩
  · constructor
    · rw [h2, h4]; exact hh
    · intro n hnn
      rw [h5, if_neg hnn]
    · intro p hp
      rw [h5, if_pos hp]
      exact hno.1 _ p hp
    · intro _ p hp
      rw [h5, if_pos hp]; rfl
  · intro i o hi ha
    rw [h4, setAuto_get] at hi
    rw [h2]
    split at hi
    · assumption
    · exfalso
      rw [setAuto_get] at hi
      split at hi
      · cases hx : s.heap[i]? with
        | none => rw [hx] at hi; simp at hi
        | some x =>
          rw [hx] at hi
          simp only [Option.map_some, Option.some.injEq] at hi
          rw [← hi] at ha
          simp at ha
      · exact absurd (hf i o hi ha) ‹_›
  · constructor
    · rw [h4]
      intro o ho
      obtain ⟨o1, ho1, e1⟩ := setAuto_mem _ _ _ _ ho
      obtain ⟨o2, ho2, e2⟩ := setAuto_mem _ _ _ _ ho1
      have := hc.1 o2 ho2
      rw [e2, e1] at this
      exact this
    · rw [h3]; exact hc.2

theorem shows_append (base : String → Option V) (s : State V) (o x : Obj V) (hs : Shows base s o) :
    Shows base { s with heap := s.heap ++ [x] } o := by
  constructor
  · have : s.cur < s.heap.length := by
      by_contra hn
      have := hs.cur
      rw [List.getElem?_eq_none (by omega)] at this
      cases this
    simp only
    rw [List.getElem?_append_left this]
    exact hs.cur
  · exact hs.others
  · exact hs.present
  · exact hs.follows

theorem follows_append (s : State V) (x : Obj V) (hx : x.auto = false) (hf : OneFollows s) :
    OneFollows { s with heap := s.heap ++ [x] } := by
  intro i o hi ha
  simp only at hi
  rcases Nat.lt_or_ge i s.heap.length with h | h
  · rw [List.getElem?_append_left h] at hi
    exact hf i o hi ha
  · rw [List.getElem?_append_right h] at hi
    have : o = x := by
      cases hk : i - s.heap.length with
      | zero => rw [hk] at hi; simpa using hi.symm
      | succ k => rw [hk] at hi; simp at hi
    rw [this, hx] at ha
    cases ha

theorem clean_append (base : String → Option V) (s : State V) (x : Obj V) (hx : x.cls.Total ∧ ∀ p ∈ x.cls.params, base p = none)
    (hc : Clean base s) : Clean base { s with heap := s.heap ++ [x] } := by
  constructor
  · intro o ho
    simp only [List.mem_append, List.mem_singleton] at ho
    rcases ho with ho | rfl
    · exact hc.1 o ho
    · exact hx
  · exact hc.2

theorem lookup_mem (r : List (List Char × Cls V)) (k : List Char) (c : Cls V) (h : lookup r k = some c) : (k, c) ∈ r := by
  unfold lookup at h
  cases hf : r.find? (fun e => e.1 == k) with
  | none => rw [hf] at h; simp at h
  | some e =>
    rw [hf] at h
    simp only [Option.map_some, Option.some.injEq] at h
    have h1 := List.mem_of_find?_eq_some hf
    have h2 := List.find?_some hf
    simp only [beq_iff_eq] at h2
    rw [← h2, ← h]
    exact h1

/-! ## The module always shows the current cosmology -/

/-- The three facts together. -/
def Inv (base : String → Option V) (s : State V) : Prop := (∃ o, Shows base s o) ∧ OneFollows s ∧ Clean base s

theorem step_inv (base : String → Option V) (s : State V) (op : Op V) (h : Inv base s)
    (hop : ∀ c ∈ op.classes, c.Total ∧ ∀ p ∈ c.params, base p = none) : Inv base (step s op).1 := by
  obtain ⟨⟨old, hs⟩, hf, hc⟩ := h
  cases op with
  | make c =>
    exact ⟨⟨old, shows_append base s old _ hs⟩, follows_append s _ rfl hf, clean_append base s _ (hop c (by simp [Op.classes])) hc⟩
  | register c name =>
    refine ⟨⟨old, ⟨hs.cur, hs.others, hs.present, hs.follows⟩⟩, hf, ⟨hc.1, ?_⟩⟩
    intro e he
    simp only [step, register, put, List.mem_cons] at he
    rcases he with rfl | he
    · exact hop c (by simp [Op.classes])
    · exact hc.2 e he
  | chooseName name auto =>
    simp only [step, chooseName]
    cases hl : lookup s.registry (lower name) with
    | none => exact ⟨⟨old, hs⟩, hf, hc⟩
    | some c =>
      simp only
      have hcl := hc.2 _ (lookup_mem _ _ _ hl)
      have := switchTo_inv base { s with heap := s.heap ++ [⟨c, fun _ => none, false⟩] } old ⟨c, fun _ => none, false⟩ s.heap.length auto
        (shows_append base s old _ hs) (follows_append s _ rfl hf) (clean_append base s _ hcl hc) (by simp)
      obtain ⟨⟨o, _, _, _, ho⟩, h2, h3⟩ := this
      exact ⟨⟨o, ho⟩, h2, h3⟩
  | chooseObj i auto known =>
    simp only [step, chooseObj]
    cases hi : s.heap[i]? with
    | none => exact ⟨⟨old, hs⟩, hf, hc⟩
    | some o =>
      simp only
      have hoc := hc.1 o (List.mem_of_getElem? hi)
      cases known with
      | true =>
        simp only [if_true]
        obtain ⟨⟨x, _, _, _, hx⟩, h2, h3⟩ := switchTo_inv base s old o i auto hs hf hc hi
        exact ⟨⟨x, hx⟩, h2, h3⟩
      | false =>
        simp only [Bool.false_eq_true, if_false]
        obtain ⟨⟨x, _, _, _, hx⟩, h2, h3⟩ := switchTo_inv base (register s o.cls []) old o i auto
          ⟨hs.cur, hs.others, hs.present, hs.follows⟩ hf ⟨hc.1, by
            intro e he
            simp only [register, put, List.mem_cons] at he
            rcases he with rfl | he
            · exact hoc
            · exact hc.2 e he⟩ hi
        exact ⟨⟨x, hx⟩, h2, h3⟩
  | set i n v =>
    simp only [step, setAttr]
    cases hi : s.heap[i]? with
    | none => exact ⟨⟨old, hs⟩, hf, hc⟩
    | some o =>
      simp only
      by_cases hset : o.cls.settable n
      · rw [if_pos hset]
        have hlt : i < s.heap.length := by
          by_contra hn
          rw [List.getElem?_eq_none (by omega)] at hi
          cases hi
        have hoc := hc.1 o (List.mem_of_getElem? hi)
        set o' : Obj V := { o with attrs := fun m => if m = n then some v else o.attrs m } with ho'
        have hcl : Clean base { s with heap := s.heap.set i o' } := by
          constructor
          · intro x hx
            rcases List.mem_or_eq_of_mem_set hx with hx | rfl
            · exact hc.1 x hx
            · exact hoc
          · exact hc.2
        have hfo : OneFollows { s with heap := s.heap.set i o' } := by
          intro j x hj ha
          simp only [List.getElem?_set] at hj
          split at hj
          · rename_i hij
            subst hij
            simp only [hlt, if_true, Option.some.injEq] at hj
            rw [← hj] at ha
            exact hf i o hi ha
          · exact hf j x hj ha
        by_cases ha : o.auto
        · rw [if_pos ha, export_total o' hoc.1]
          simp only
          have hic := hf i o hi ha
          subst hic
          have hoo : o = old := by
            have := hs.cur; rw [hi] at this; exact Option.some.inj this
          subst hoo
          refine ⟨⟨o', ?_⟩, hfo, hcl⟩
          constructor
          · simp [hlt]
          · intro m hm
            simp only
            rw [if_neg hm]
            exact hs.others m hm
          · intro p hp
            simp only
            rw [if_pos hp]
            exact hoc.1 _ p hp
          · intro _ p hp
            simp only
            rw [if_pos hp]
        · rw [if_neg ha]
          refine ⟨?_, hfo, hcl⟩
          by_cases hic : i = s.cur
          · subst hic
            have hoo : o = old := by
              have := hs.cur; rw [hi] at this; exact Option.some.inj this
            subst hoo
            exact ⟨o', ⟨by simp [hlt], hs.others, hs.present, fun h => absurd h ha⟩⟩
          · exact ⟨old, ⟨by simp only; rw [List.getElem?_set_ne hic]; exact hs.cur, hs.others, hs.present, hs.follows⟩⟩
      · rw [if_neg hset]
        exact ⟨⟨old, hs⟩, hf, hc⟩
  | update =>
    simp only [step, update]
    rw [hs.cur]
    simp only
    have hoc := hc.1 old (List.mem_of_getElem? hs.cur)
    rw [export_total old hoc.1]
    simp only
    refine ⟨⟨old, ⟨hs.cur, ?_, ?_, ?_⟩⟩, hf, hc⟩
    · intro n hn
      simp only
      rw [if_neg hn]; exact hs.others n hn
    · intro p hp
      simp only
      rw [if_pos hp]
      exact hoc.1 _ p hp
    · intro _ p hp
      simp only
      rw [if_pos hp]

/-- After any history of creations, registrations, choices (by name or object, also of unknown names), assignments and updates, with
classes whose parameters can always be read and clash with no other module variable: the module variables are exactly the
parameters of the current cosmology and, unchanged, everything that was there besides; if the current object follows they have
its values; no other object follows. -/
theorem module_shows_current (base : String → Option V) (s : State V) (ops : List (Op V)) (h : Inv base s)
    (hops : ∀ op ∈ ops, ∀ c ∈ op.classes, c.Total ∧ ∀ p ∈ c.params, base p = none) : Inv base (run s ops) := by
  induction ops generalizing s with
  | nil => exact h
  | cons op ops ih =>
    exact ih _ (step_inv base s op h (hops op (by simp))) (fun o ho => hops o (by simp [ho]))

/-- A choice takes effect at once: the module has the values of the chosen object and it is current, and with `autoupdate=True`
(the default) it follows. -/
theorem choose_effect (base : String → Option V) (s : State V) (i : Nat) (auto : Bool) (o : Obj V) (h : Inv base s)
    (hi : s.heap[i]? = some o) :
    (chooseObj s i auto true).2 = none ∧ (chooseObj s i auto true).1.cur = i ∧
    (∀ p ∈ o.cls.params, (chooseObj s i auto true).1.globals p = o.get p) ∧
    (∀ n, n ∉ o.cls.params → (chooseObj s i auto true).1.globals n = base n) ∧
    ∃ o', (chooseObj s i auto true).1.heap[i]? = some o' ∧ o'.auto = auto ∧ o'.cls = o.cls ∧ o'.attrs = o.attrs := by
  obtain ⟨⟨old, hs⟩, hf, hc⟩ := h
  unfold chooseObj
  rw [hi]
  simp only [if_true]
  obtain ⟨h1, h2, _, h4, h5⟩ := switchTo_total base s old o i auto hs hf hc hi
  refine ⟨h1, h2, ?_, ?_, ?_⟩
  · intro p hp; rw [h5, if_pos hp]
  · intro n hn; rw [h5, if_neg hn]
  · rw [h4, setAuto_get, if_pos rfl, setAuto_get]
    split
    · rw [hi]; exact ⟨_, rfl, rfl, rfl, rfl⟩
    · rw [hi]; exact ⟨_, rfl, rfl, rfl, rfl⟩

/-- Assigning to an object that is not current changes no module variable. -/
theorem set_other (base : String → Option V) (s : State V) (i : Nat) (n : String) (v : V) (h : Inv base s) (hi : i ≠ s.cur) :
    (setAttr s i n v).1.globals = s.globals := by
  obtain ⟨_, hf, _⟩ := h
  unfold setAttr
  cases ho : s.heap[i]? with
  | none => rfl
  | some o =>
    simp only
    split
    · have : o.auto = false := by
        by_contra hh
        exact hi (hf i o ho (by simpa using hh))
      rw [this]; rfl
    · rfl

/-- Choosing an unknown name raises KeyError and changes nothing. -/
theorem unknown_name (s : State V) (name : List Char) (auto : Bool) (h : lookup s.registry (lower name) = none) :
    chooseName s name auto = (s, some .key) := by
  unfold chooseName; rw [h]

/-! ## Where it ends -/

/-- A plain class: its attributes are what is stored. -/
def plain (name : String) (params : List String) (default : String → Option Int) : Cls Int :=
  ⟨name.toList, params, fun a p => (a p).orElse (fun _ => default p), fun _ => true⟩

/-- A class with a parameter that shares its name with a constant of the module (`h`, Planck's constant, is also the usual name of
the reduced Hubble constant): choosing it and going back deletes the constant. -/
theorem constant_lost :
    let base : String → Option Int := fun n => if n = "h" then some 6626 else none
    let a := plain "A" ["H0"] (fun _ => some 70)
    let b := plain "B" ["H0", "h"] (fun _ => some 1)
    let s : State Int := ⟨fun n => if n = "H0" then some 70 else base n, [⟨a, fun _ => none, true⟩, ⟨b, fun _ => none, false⟩], 0, []⟩
    s.globals "h" = some 6626 ∧ (run s [.chooseObj 1 true true, .chooseObj 0 true true]).globals "h" = none ∧
    (run s [.chooseObj 1 true true, .chooseObj 0 true true]).cur = 0 := by decide

/-- A class with a parameter that cannot be read until it is assigned. -/
def broken : Cls Int := ⟨"Broken".toList, ["H0", "w"], fun a p => if p = "H0" then some 50 else a p, fun _ => true⟩

/-- Choosing an object whose parameters cannot be read: the call raises, the old cosmology stays current, but it no longer follows
(an assignment to it does not reach the module) and the rejected object does: the next assignment to it puts its parameters
over those of the current cosmology. -/
theorem failed_choice :
    let a := plain "A" ["H0"] (fun _ => some 70)
    let s : State Int := ⟨fun n => if n = "H0" then some 70 else none, [⟨a, fun _ => none, true⟩, ⟨broken, fun _ => none, false⟩], 0, []⟩
    let t := (chooseObj s 1 true true).1
    (chooseObj s 1 true true).2 = some .other ∧ t.cur = 0 ∧ t.globals "H0" = some 70 ∧
    (setAttr t 0 "H0" 71).1.globals "H0" = some 70 ∧
    (setAttr t 1 "w" 5).1.cur = 0 ∧ (setAttr t 1 "w" 5).1.globals "H0" = some 50 := by decide

/-- A start state that satisfies the hypotheses, with a second class that has one more parameter. -/
def exampleState : State Int :=
  ⟨fun n => if n = "H0" then some 70 else if n = "c" then some 299792 else none,
   [⟨plain "WMAP3Cosmology" ["H0"] (fun _ => some 70), fun _ => none, true⟩], 0,
   [("wmap3".toList, plain "WMAP3Cosmology" ["H0"] (fun _ => some 70)),
    ("wmap7".toList, plain "WMAP7Cosmology" ["H0", "t0"] (fun _ => some 71))]⟩

theorem plain_total (name : String) (params : List String) (d : Int) : (plain name params (fun _ => some d)).Total := by
  intro a p _
  simp only [plain]
  cases a p <;> simp

theorem example_inv : Inv (fun n => if n = "c" then some 299792 else none) exampleState := by
  refine ⟨⟨_, ⟨rfl, ?_, ?_, ?_⟩⟩, ?_, ?_, ?_⟩
  · intro n hn
    simp only [plain, List.mem_singleton] at hn
    simp [exampleState, hn]
  · intro p hp
    simp only [plain, List.mem_singleton] at hp
    simp [exampleState, hp]
  · intro _ p hp
    simp only [plain, List.mem_singleton] at hp
    simp [exampleState, hp, Obj.get, plain]
  · intro i o hi _
    cases i with
    | zero => rfl
    | succ k => simp [exampleState] at hi
  · intro o ho
    simp only [exampleState, List.mem_singleton] at ho
    subst ho
    refine ⟨plain_total _ _ _, ?_⟩
    intro p hp
    simp only [plain, List.mem_singleton] at hp
    simp [hp]
  · intro e he
    simp only [exampleState, List.mem_cons, List.not_mem_nil, or_false] at he
    rcases he with rfl | rfl
    · refine ⟨plain_total _ _ _, ?_⟩
      intro p hp
      simp only [plain, List.mem_singleton] at hp
      simp [hp]
    · refine ⟨plain_total _ _ _, ?_⟩
      intro p hp
      simp only [plain, List.mem_cons, List.not_mem_nil, or_false] at hp
      rcases hp with rfl | rfl <;> simp

example : (run exampleState [.chooseName "WMAP7".toList true, .set 1 "H0" 72]).globals "H0" = some 72 ∧
    (run exampleState [.chooseName "WMAP7".toList true, .chooseName "wmap3".toList true]).globals "t0" = none := by decide

/-! ## Names -/

theorem strip_free (pat : List Char) (s : List Char) (h : ¬ pat <:+: s) : strip pat 0 s = s := by
  induction s with
  | nil => rfl
  | cons c cs ih =>
    unfold strip
    rw [if_neg]
    · rw [ih]
      intro hh
      exact h (hh.trans (List.suffix_cons c cs).isInfix)
    · intro hp
      exact h (List.IsPrefix.isInfix (List.isPrefixOf_iff_prefix.1 hp))

theorem lookup_put (r : List (List Char × Cls V)) (k : List Char) (c : Cls V) (k' : List Char) :
    lookup (put r k c) k' = if k' = k then some c else lookup r k' := by
  unfold lookup put
  rw [List.find?_cons]
  by_cases h : k = k'
  · subst h; simp
  · have : (k == k') = false := by simpa using h
    simp only [this]
    rw [if_neg (fun hh => h hh.symm)]

/-- A class registered under a name is found by `choose_cosmology` under that name in any capitalisation, unless the name contains
the word "cosmology". -/
theorem register_then_choose (s : State V) (c : Cls V) (name name' : List Char) (hne : name ≠ [])
    (hl : lower name' = lower name) (h : ¬ word <:+: lower name) :
    lookup (register s c name).registry (lower name') = some c ∧
    ∀ k, k ≠ lower name → lookup (register s c name).registry k = lookup s.registry k := by
  have hk : key (if name = [] then c.name else name) = lower name := by
    rw [if_neg hne]; exact strip_free word _ h
  constructor
  · simp only [register, hk]
    rw [lookup_put, if_pos hl]
  · intro k hkn
    simp only [register, hk]
    rw [lookup_put, if_neg hkn]

/-- The class name itself does not work: after `register_cosmology(WMAP7Cosmology)` the name 'WMAP7Cosmology' is unknown to
`choose_cosmology`, 'WMAP7' is known to it but not to `get_cosmology`, which wants 'wmap7'. -/
theorem class_name_unknown :
    let c := plain "WMAP7Cosmology" ["H0"] (fun _ => some 71)
    let s : State Int := register ⟨fun _ => none, [], 0, []⟩ c []
    (chooseName s "WMAP7Cosmology".toList true).2 = some .key ∧ (lookup s.registry (lower "WMAP7".toList)).isSome ∧
    (getCosmology s "WMAP7".toList).isNone ∧ (getCosmology s "wmap7".toList).isSome := by decide

example : lookup (register exampleState (plain "X" ["H0"] (fun _ => some 1)) "MyModel".toList).registry (lower "mymodel".toList) ≠ none := by
  rw [(register_then_choose exampleState _ "MyModel".toList "mymodel".toList (by decide) (by decide) (by decide)).1]
  simp

end Verif.CosmoRegistry
