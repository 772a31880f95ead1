import Mathlib.Data.List.Nodup
import Mathlib.Tactic.SplitIfs

/-!
# C136: fields that link to other nodes (astropysics/objcat.py:2448-2522)

A link holds a node only weakly: when nothing else holds the node, it is gone and the link is dead.  Sources are `Source`
objects, except that a `LinkValue` keeps whatever it is given (2500-2504), also a string.
Simplifications: the nodes have the type the field wants; there are no notifiers.
-/

namespace Verif.LinkField

/-- What a link has as its source: a `Source` object or a bare string. -/
inductive Src
  | obj (s : String)
  | raw (s : String)
deriving DecidableEq, Repr

/-- A key given by the caller: a `Source` object or a string. -/
abbrev Key := Src

/-- The text of a key. -/
def Src.text : Src → String
  | .obj s => s
  | .raw s => s

/-- The field: its links, current one first (source and number of the node). -/
abbrev Field := List (Src × Nat)

/-- Exceptions. -/
inductive Exc
  | key | index | type
deriving DecidableEq, Repr

/-- `Field.__getitem__` with a source or a string (astropysics/objcat.py:1302-1327): a string is made a `Source`, which no bare
string equals. -/
def get (f : Field) (k : Key) : Except Exc (Src × Nat) :=
  match f.find? (fun v => v.1 = .obj k.text) with
  | some v => .ok v
  | none => .error .key

/-- Replace the first value with that source. -/
def replace (s : String) (v : Src × Nat) : Field → Field
  | [] => []
  | x :: l => if x.1 = .obj s then v :: l else x :: replace s v l

/-- `field[key] = node` (astropysics/objcat.py:1329-1348, 2476-2486): in place the key itself is passed on as the source
(1333), otherwise a `Source` made from it (1342-1343). -/
def set (f : Field) (k : Key) (n : Nat) : Field :=
  if f.any (fun v => v.1 = .obj k.text) then replace k.text (k, n) f else f ++ [(.obj k.text, n)]

/-- `del field[key]` (astropysics/objcat.py:1350-1358). -/
def del (f : Field) (k : Key) : Field × Except Exc Unit :=
  if f.any (fun v => v.1 = .obj k.text) then (f.eraseP (fun v => v.1 = .obj k.text), .ok ()) else (f, .error .key)

/-- `field.currentobj = key` (astropysics/objcat.py:1439-1454): a key that is not there cannot be made a link. -/
def current (f : Field) (k : Key) : Field × Except Exc Unit :=
  match f.find? (fun v => v.1 = .obj k.text) with
  | some v => (v :: f.eraseP (fun v => v.1 = .obj k.text), .ok ())
  | none => (f, .error .type)

/-- `field.currentobj = (key,node)` (astropysics/objcat.py:1439-1454, 2476-2486). -/
def currentPair (f : Field) (k : Key) (n : Nat) : Field := (k, n) :: f.eraseP (fun v => v.1 = .obj k.text)

/-- `field()` (astropysics/objcat.py:2488-2493) when the nodes `live` exist: a dead current link is deleted by its source and the
next one tried; `currentobj` of an empty field is an IndexError (1434-1438). The recursion ends because each deletion
shortens the list. -/
def call (live : Nat → Bool) : Nat → Field → Field × Except Exc Nat
  | 0, f => (f, .error .index)
  | _ + 1, [] => ([], .error .index)
  | fuel + 1, v :: f =>
    if live v.2 then (v :: f, .ok v.2)
    else match del (v :: f) v.1 with
      | (f1, .error x) => (f1, .error x)
      | (f1, .ok _) => call live fuel f1

/-- `field()`. -/
def value (live : Nat → Bool) (f : Field) : Field × Except Exc Nat := call live (f.length + 1) f

/-- Pickling (astropysics/objcat.py:2513-2522): a dead link is saved as `None`, of which no weak reference can be made, so that
loading fails. -/
def loads (live : Nat → Bool) (f : Field) : Except Exc Field := if f.all (fun v => live v.2) then .ok f else .error .type

/-! ## Histories -/

/-- Public calls, and nodes that cease to exist. -/
inductive Op
  | set (k : Key) (n : Nat)
  | del (k : Key)
  | current (k : Key)
  | currentPair (k : Key) (n : Nat)
  | call
  | gone (n : Nat)

/-- The field and the nodes that exist. -/
structure State where
  field : Field
  live : Nat → Bool

/-- One call. -/
def step (s : State) : Op → State
  | .set k n => { s with field := set s.field k n }
  | .del k => { s with field := (del s.field k).1 }
  | .current k => { s with field := (current s.field k).1 }
  | .currentPair k n => { s with field := currentPair s.field k n }
  | .call => { s with field := (value s.live s.field).1 }
  | .gone n => { s with live := fun m => decide (m ≠ n) && s.live m }

/-- A history. -/
def run (s : State) (ops : List Op) : State := ops.foldl step s

/-! ## Specification -/

/-- A key that is a `Source` object. -/
def IsObj : Key → Prop
  | .obj _ => True
  | .raw _ => False

/-- All keys of a history are `Source` objects. -/
def ObjOp : Op → Prop
  | .set k _ => IsObj k
  | .del k => IsObj k
  | .current k => IsObj k
  | .currentPair k _ => IsObj k
  | _ => True

/-- Sources are `Source` objects, each at most once. -/
def Good (f : Field) : Prop := (f.map (·.1)).Nodup ∧ ∀ v ∈ f, IsObj v.1

theorem isObj_eq {k : Key} (h : IsObj k) : k = .obj k.text := by
  cases k with
  | obj s => rfl
  | raw s => exact absurd h id

/-! ## Dead links -/

theorem call_good (live : Nat → Bool) : ∀ (fuel : Nat) (f : Field), f.length < fuel → Good f →
    call live fuel f = (f.dropWhile (fun v => !live v.2), match f.find? (fun v => live v.2) with
      | some v => .ok v.2
      | none => .error .index) := by
  intro fuel
  induction fuel with
  | zero => intro f h; omega
  | succ fuel ih =>
    intro f hl hg
    cases f with
    | nil => rfl
    | cons v f =>
      by_cases hv : live v.2 = true
      · simp [call, hv]
      · obtain ⟨h1, h2⟩ := hg
        have hk := isObj_eq (h2 v (by simp))
        have hd : del (v :: f) v.1 = (f, .ok ()) := by
          have : decide (v.1 = Src.obj v.1.text) = true := by simpa using hk
          simp only [del, List.any_cons, this, Bool.true_or, if_true]
          rw [List.eraseP_cons_of_pos (p := fun w : Src × Nat => decide (w.1 = Src.obj v.1.text)) this]
        simp only [call, hv, Bool.false_eq_true, if_false, hd]
        rw [ih f (by simp at hl; omega) ⟨(List.nodup_cons.mp h1).2, fun w hw => h2 w (List.mem_cons_of_mem _ hw)⟩]
        simp [hv]

/-- **C136**: calling the field gives the first link whose node exists and removes the dead links before it, nothing else;
IndexError exactly if there is no such link. -/
theorem value_exact (live : Nat → Bool) {f : Field} (hg : Good f) :
    (value live f).1 = f.dropWhile (fun v => !live v.2) ∧
    (∀ n, (value live f).2 = .ok n ↔ ∃ v a b, f = a ++ v :: b ∧ (∀ w ∈ a, live w.2 = false) ∧ live v.2 = true ∧ v.2 = n) ∧
    ((value live f).2 = .error .index ↔ ∀ v ∈ f, live v.2 = false) := by
  rw [value, call_good live _ f (by omega) hg]
  refine ⟨rfl, fun n => ?_, ?_⟩
  · simp only
    cases hf : f.find? (fun v => live v.2) with
    | none =>
      simp only [reduceCtorEq, false_iff]
      rintro ⟨v, a, b, rfl, _, hv, _⟩
      have := List.find?_eq_none.mp hf v (by simp)
      exact this hv
    | some v =>
      simp only [Except.ok.injEq]
      obtain ⟨h1, a, b, h2, h3⟩ := List.find?_eq_some_iff_append.mp hf
      constructor
      · rintro rfl
        exact ⟨v, a, b, h2, fun w hw => by simpa using h3 w hw, h1, rfl⟩
      · rintro ⟨w, c, d, e1, e2, e3, rfl⟩
        have : f.find? (fun v => live v.2) = some w :=
          List.find?_eq_some_iff_append.mpr ⟨e3, c, d, e1, fun x hx => by simpa using e2 x hx⟩
        rw [hf] at this
        cases this
        rfl
  · simp only
    cases hf : f.find? (fun v => live v.2) with
    | none => simpa using List.find?_eq_none.mp hf
    | some v =>
      simp only [reduceCtorEq, false_iff, not_forall]
      obtain ⟨h1, a, b, h2, h3⟩ := List.find?_eq_some_iff_append.mp hf
      exact ⟨v, by rw [h2]; simp, by simpa using h1⟩

/-! ## Sources as keys -/

theorem replace_eq {s : String} {v : Src × Nat} (hv : v.1 = .obj s) : ∀ {f : Field}, (f.map (·.1)).Nodup →
    replace s v f = f.map (fun x => if x.1 = .obj s then v else x) := by
  intro f
  induction f with
  | nil => intro _; rfl
  | cons x f ih =>
    intro h
    obtain ⟨h1, h2⟩ := List.nodup_cons.mp h
    by_cases hx : x.1 = .obj s
    · simp only [replace, hx, if_true, List.map_cons]
      congr 1
      have : f.map (fun x => if x.1 = .obj s then v else x) = f.map id := by
        apply List.map_congr_left
        intro y hy
        rw [if_neg]
        · rfl
        · intro e
          exact h1 (List.mem_map.mpr ⟨y, hy, e.trans hx.symm⟩)
      rw [this]; simp
    · simp only [replace, hx, if_false, List.map_cons, ih h2]

theorem good_set {f : Field} (hg : Good f) {k : Key} (hk : IsObj k) (n : Nat) : Good (set f k n) := by
  obtain ⟨h1, h2⟩ := hg
  have ek := isObj_eq hk
  simp only [set]
  split_ifs with h
  · rw [replace_eq ek h1]
    constructor
    · rw [List.map_map]
      have : (fun x : Src × Nat => x.1) ∘ (fun x => if x.1 = Src.obj k.text then (k, n) else x) = fun x => x.1 := by
        funext x
        simp only [Function.comp]
        split_ifs with hx
        · rw [hx]; exact ek
        · rfl
      rw [this]; exact h1
    · intro v hv
      obtain ⟨x, hx, rfl⟩ := List.mem_map.mp hv
      split_ifs
      · exact hk
      · exact h2 x hx
  · constructor
    · rw [List.map_append]
      refine List.nodup_append.mpr ⟨h1, by simp, ?_⟩
      intro a ha b hb e
      simp only [List.map_cons, List.map_nil, List.mem_singleton] at hb
      subst hb e
      obtain ⟨x, hx, hxe⟩ := List.mem_map.mp ha
      exact h (List.any_eq_true.mpr ⟨x, hx, by simpa using hxe⟩)
    · intro v hv
      rcases List.mem_append.mp hv with hv | hv
      · exact h2 v hv
      · rw [List.mem_singleton] at hv; subst hv; trivial

theorem good_erase {f : Field} (hg : Good f) (p : Src × Nat → Bool) : Good (f.eraseP p) :=
  ⟨hg.1.sublist ((List.eraseP_sublist).map _), fun v hv => hg.2 v (List.mem_of_mem_eraseP hv)⟩

theorem erase_not {f : Field} (hg : Good f) (s : Src) : s ∉ (f.eraseP (fun v => v.1 = s)).map (·.1) := by
  have h1 := hg.1
  clear hg
  induction f with
  | nil => simp
  | cons x f ih =>
    obtain ⟨a, b⟩ := List.nodup_cons.mp h1
    by_cases hx : x.1 = s
    · rw [List.eraseP_cons_of_pos (by simpa using hx)]
      rw [← hx]; exact a
    · rw [List.eraseP_cons_of_neg (by simpa using hx)]
      simp only [List.map_cons, List.mem_cons, not_or]
      exact ⟨fun e => hx e.symm, ih b⟩

theorem good_step {s : State} (hg : Good s.field) {op : Op} (ho : ObjOp op) : Good (step s op).field := by
  cases op with
  | set k n => exact good_set hg ho n
  | del k =>
    simp only [step, del]
    split_ifs
    · exact good_erase hg _
    · exact hg
  | current k =>
    simp only [step, current]
    cases hf : s.field.find? (fun v => v.1 = .obj k.text) with
    | none => exact hg
    | some v =>
      have hv : v.1 = .obj k.text := by simpa using List.find?_some hf
      refine ⟨?_, ?_⟩
      · simp only [List.map_cons, List.nodup_cons]
        refine ⟨?_, (good_erase hg _).1⟩
        rw [hv]; exact erase_not hg _
      · intro w hw
        rcases List.mem_cons.mp hw with rfl | hw
        · exact hg.2 _ (List.mem_of_find?_eq_some hf)
        · exact (good_erase hg _).2 w hw
  | currentPair k n =>
    simp only [step, currentPair]
    refine ⟨?_, ?_⟩
    · simp only [List.map_cons, List.nodup_cons]
      refine ⟨?_, (good_erase hg _).1⟩
      have := isObj_eq ho
      rw [this]
      exact erase_not hg _
    · intro w hw
      rcases List.mem_cons.mp hw with rfl | hw
      · exact ho
      · exact (good_erase hg _).2 w hw
  | call =>
    simp only [step]
    rw [(value_exact s.live hg).1]
    have hs := List.dropWhile_suffix (l := s.field) (fun v => !s.live v.2)
    exact ⟨hg.1.sublist (hs.sublist.map _), fun v hv => hg.2 v (hs.subset hv)⟩
  | gone n => exact hg

/-- **C136**: after any history with `Source` objects as keys, in which nodes may cease to exist at any time, each source has
at most one link. -/
theorem sources_distinct (live : Nat → Bool) (ops : List Op) (ho : ∀ op ∈ ops, ObjOp op) :
    Good (run ⟨[], live⟩ ops).field := by
  have : ∀ (ops : List Op) (s : State), Good s.field → (∀ op ∈ ops, ObjOp op) → Good (run s ops).field := by
    intro ops
    induction ops with
    | nil => exact fun s h _ => h
    | cons op ops ih =>
      exact fun s h ho => ih _ (good_step h (ho op (by simp))) (fun o h => ho o (List.mem_cons_of_mem _ h))
  exact this ops _ ⟨by simp, by simp⟩ ho

theorem find_map {f : Field} {s t : Src} {v : Src × Nat} (hv : v.1 = s) :
    (f.map (fun x => if x.1 = s then v else x)).find? (fun x => x.1 = t) =
      if s = t then (if f.any (fun x => x.1 = s) then some v else none) else f.find? (fun x => x.1 = t) := by
  induction f with
  | nil => simp
  | cons x f ih =>
    by_cases hst : s = t
    · subst hst
      simp only [if_true] at ih
      by_cases hx : x.1 = s
      · simp [hx, hv]
      · have hb : decide (x.1 = s) = false := by simpa using hx
        rw [List.map_cons, if_neg hx, List.find?_cons, hb, List.any_cons, hb, Bool.false_or, if_pos rfl]
        exact ih
    · rw [if_neg hst] at ih ⊢
      by_cases hx : x.1 = s
      · have h1 : decide (v.1 = t) = false := by simpa using fun e => hst (hv.symm.trans e)
        have h2 : decide (x.1 = t) = false := by simpa using fun e => hst (hx.symm.trans e)
        simp only [List.map_cons, hx, if_true, List.find?_cons, h1, ih]
        rw [← hx, h2]
      · simp only [List.map_cons, hx, if_false, List.find?_cons, ih]

/-- **C136**: with `Source` objects as keys, `field[key]` is the link assigned last to that source, and an assignment changes
no other. -/
theorem set_get {f : Field} (hg : Good f) (k : Key) (hk : IsObj k) (n : Nat) :
    get (set f k n) k = .ok (k, n) ∧ ∀ k', k'.text ≠ k.text → get (set f k n) k' = get f k' := by
  have ek := isObj_eq hk
  simp only [set]
  split_ifs with h
  · rw [replace_eq ek hg.1]
    constructor
    · have := find_map (f := f) (s := .obj k.text) (t := .obj k.text) (v := (k, n)) ek
      simp only [get, this, h, if_true]
    · intro k' hk'
      have hne : ¬ Src.obj k.text = Src.obj k'.text := by simpa using fun e => hk' (Eq.symm e)
      have := find_map (f := f) (s := .obj k.text) (t := .obj k'.text) (v := (k, n)) ek
      simp only [get, this, hne, if_false]
  · constructor
    · have hn : f.find? (fun v => v.1 = .obj k.text) = none := by
        rw [List.find?_eq_none]
        intro v hv he
        exact h (List.any_eq_true.mpr ⟨v, hv, he⟩)
      simp only [get, List.find?_append, hn, Option.none_or]
      simp [← ek]
    · intro k' hk'
      have hne : ¬ k.text = k'.text := fun e => hk' e.symm
      simp only [get, List.find?_append]
      simp [hne]

/-- **C136**: a saved field can be loaded exactly if no link in it is dead. -/
theorem loads_iff (live : Nat → Bool) (f : Field) : loads live f = .ok f ↔ ∀ v ∈ f, live v.2 = true := by
  simp [loads]

/-! ## Strings as keys -/

/-- Assigning twice with a string as key: the link cannot be found any more. -/
theorem replaced_link_lost : get (set (set [] (.raw "a") 1) (.raw "a") 2) (.raw "a") = .error .key ∧
    get (set (set [] (.raw "a") 1) (.raw "a") 2) (.obj "a") = .error .key := by decide

/-- When its node ceases to exist the field cannot be read, although another link is alive; and reading it removes a living
link with the same name. -/
theorem dead_string_link :
    let f := set (set (set (set [] (.raw "a") 1) (.raw "b") 2) (.raw "a") 3) (.raw "a") 4
    f = [(.raw "a", 3), (.obj "b", 2), (.obj "a", 4)] ∧
    value (fun n => decide (n ≠ 3)) f = ([(.raw "a", 3), (.obj "b", 2)], .error .key) := by decide

example : value (fun n => decide (n = 2)) (set (set [] (.obj "a") 1) (.obj "b") 2) = ([(.obj "b", 2)], .ok 2) := by decide

example : Good (set (set [] (.obj "a") 1) (.obj "b") 2) := 
  good_set (good_set ⟨by simp, by simp⟩ (show IsObj (.obj "a") from trivial) 1) (show IsObj (.obj "b") from trivial) 2

end Verif.LinkField
