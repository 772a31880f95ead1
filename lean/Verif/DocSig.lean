import Mathlib.Data.List.Basic
import Mathlib.Data.List.Infix

/-!
# Signatures in documentation (astropysics/utils/gen.py, `add_docs_and_sig`, 542-579) (C248)

What `inspect.getargspec` says about a function is the input; Python refuses a function with more defaults than arguments, which is the hypothesis `ok`.
-/

namespace Verif.DocSig

/-- A default, gen.py 563-566: a text, or something else with what `str` makes of it. -/
inductive Dflt
  | text (s : String)
  | other (s : String)
  deriving DecidableEq, Repr

/-- What is known about a function: its name, docstring and the result of `getargspec` (`defaults` is None without defaults). -/
structure Fn where
  name : String
  doc : Option String
  args : List String
  varargs : Option String
  varkw : Option String
  defaults : Option (List Dflt)

/-- gen.py 563-566. -/
def ds : Dflt → String
  | .text s => "'" ++ s ++ "'"
  | .other s => s

/-- One assignment `args[-1-i] = args[-1-i]+'='+ds`, gen.py 567. -/
def put (args : List String) (i : ℕ) (d : Dflt) : List String :=
  args.modify (args.length - 1 - i) (fun a => a ++ "=" ++ ds d)

/-- The loop, gen.py 562-567, from index `i` on; the list is already reversed. -/
def loop : List String → ℕ → List Dflt → List String
  | args, _, [] => args
  | args, i, d :: l => loop (put args i d) (i + 1) l

/-- The parts of the signature, gen.py 561-571: `none` where `reversed(None)` is a TypeError. -/
def parts (f : Fn) : Option (List String) :=
  f.defaults.map fun l =>
    let a := loop f.args 0 l.reverse
    let a := match f.varargs with
      | none => a
      | some v => ("*" ++ v) :: a
    match f.varkw with
      | none => a
      | some v => a ++ ["**" ++ v]

/-- The new docstring of one function, gen.py 572-573: `none` for a TypeError. -/
def newDoc (f : Fn) : Option String :=
  match parts f, f.doc with
  | some a, some d => some (f.name ++ "(" ++ String.intercalate "," a ++ ")" ++ "\n" ++ d)
  | _, _ => none

/-- `nmdocs` for all of the functions, gen.py 555-574. -/
def nmdocs : List Fn → Option (List (String × String))
  | [] => some []
  | f :: l =>
    match newDoc f with
    | none => none
    | some d => (nmdocs l).map ((f.name, d) :: ·)

/-! ## Specification -/

/-- Python allows no more defaults than arguments. -/
def Fn.ok (f : Fn) : Prop := ∀ l, f.defaults = some l → l.length ≤ f.args.length

/-- The arguments with their defaults: the last ones have them, in order. -/
def withDefaults (args : List String) (l : List Dflt) : List String :=
  args.take (args.length - l.length) ++ List.zipWith (fun a d => a ++ "=" ++ ds d) (args.drop (args.length - l.length)) l

/-- How Python writes the parameters: arguments, then the rest, then keywords. -/
def pythonParts (f : Fn) : List String :=
  withDefaults f.args (f.defaults.getD []) ++ (f.varargs.map ("*" ++ ·)).toList ++ (f.varkw.map ("**" ++ ·)).toList

theorem modify_at (g : String → String) (a : List String) (x : String) (b : List String) :
    (a ++ ([x] ++ b)).modify a.length g = a ++ (g x :: b) := by
  induction a with
  | nil => simp
  | cons y a ih => simpa using ih

theorem loop_eq (l : List Dflt) : ∀ (a b : List String), l.length ≤ a.length →
    loop (a ++ b) b.length l = withDefaults a l.reverse ++ b := by
  induction l with
  | nil => intro a b _; simp [loop, withDefaults]
  | cons d l ih =>
    intro a b h
    rcases List.eq_nil_or_concat a with rfl | ⟨a', x, rfl⟩
    · simp at h
    · simp only [List.concat_eq_append] at h ⊢
      have hl : l.length ≤ a'.length := by simpa using h
      have hp : put (a' ++ [x] ++ b) b.length d = a' ++ ((x ++ "=" ++ ds d) :: b) := by
        unfold put
        have : (a' ++ [x] ++ b).length - 1 - b.length = a'.length := by simp
        rw [this, List.append_assoc]
        exact modify_at _ a' x b
      rw [loop, hp]
      have := ih a' ((x ++ "=" ++ ds d) :: b) hl
      rw [List.length_cons] at this
      rw [this]
      unfold withDefaults
      have e : (a' ++ [x]).length - (d :: l).reverse.length = a'.length - l.reverse.length := by simp
      rw [e, List.take_append_of_le_length (by omega), List.drop_append_of_le_length (by omega), List.reverse_cons,
        List.zipWith_append (by simp; omega)]
      simp

/-- **Arguments**: the loop over the reversed defaults gives the last arguments their defaults, in order. -/
theorem arguments (args : List String) (l : List Dflt) (h : l.length ≤ args.length) :
    loop args 0 l.reverse = withDefaults args l := by
  simpa using loop_eq l.reverse args [] (by simpa using h)

/-- **What is written**: the rest parameter comes first. -/
theorem written (f : Fn) (l : List Dflt) (h : f.defaults = some l) (hok : f.ok) :
    parts f = some ((f.varargs.map ("*" ++ ·)).toList ++ withDefaults f.args l ++ (f.varkw.map ("**" ++ ·)).toList) := by
  have := arguments f.args l (hok l h)
  unfold parts
  rw [h]
  cases hv : f.varargs <;> cases hk : f.varkw <;> simp [this]
  
/-- **When it works**: exactly for functions with defaults and a docstring. -/
theorem works (f : Fn) : (newDoc f).isSome = true ↔ f.defaults.isSome = true ∧ f.doc.isSome = true := by
  unfold newDoc parts
  cases f.defaults <;> cases f.doc <;> simp

/-- **Right signature**: without a rest parameter the first line of the documentation is the signature as Python writes it, and the rest is the docstring. -/
theorem right (f : Fn) (l : List Dflt) (d : String) (h : f.defaults = some l) (hd : f.doc = some d) (hok : f.ok) (hv : f.varargs = none) :
    newDoc f = some (f.name ++ "(" ++ String.intercalate "," (pythonParts f) ++ ")" ++ "\n" ++ d) := by
  have := written f l h hok
  unfold newDoc
  rw [this, hd]
  simp [pythonParts, hv, h]

/-- **Wrong order**: with a rest parameter and arguments (whose names have no star), the parts are not in Python's order. -/
theorem wrong (f : Fn) (l : List Dflt) (v : String) (h : f.defaults = some l) (hok : f.ok) (hv : f.varargs = some v)
    (hne : f.args ≠ []) (hstar : ∀ a ∈ f.args, a.toList.head? ≠ some '*' ∧ a ≠ "") : parts f ≠ some (pythonParts f) := by
  rw [written f l h hok]
  intro e
  simp only [Option.some.injEq, pythonParts, hv, h, Option.getD_some] at e
  have hl := hok l h
  have key : ∀ x ∈ withDefaults f.args l, x.toList.head? ≠ some '*' := by
    intro x hx
    unfold withDefaults at hx
    rcases List.mem_append.1 hx with hx | hx
    · exact (hstar x (List.mem_of_mem_take hx)).1
    · obtain ⟨i, hi, rfl⟩ := List.mem_iff_getElem.1 hx
      rw [List.getElem_zipWith]
      have hm := hstar ((f.args.drop (f.args.length - l.length))[i]'(by simp at hi; simp; omega)) (List.mem_of_mem_drop (List.getElem_mem _))
      generalize (f.args.drop (f.args.length - l.length))[i]'_ = a at hm
      simp only [String.toList_append]
      cases ha : a.toList with
      | nil => exact absurd (String.toList_eq_nil_iff.1 ha) hm.2
      | cons c t => rw [ha] at hm; simpa using hm.1
  have hw : withDefaults f.args l ≠ [] := by
    intro hw
    have h1 := congrArg List.length hw
    have h2 : 0 < f.args.length := List.length_pos_iff.2 hne
    unfold withDefaults at h1
    rw [List.length_append, List.length_take, List.length_zipWith, List.length_drop, List.length_nil] at h1
    omega
  cases hc : withDefaults f.args l with
  | nil => exact hw hc
  | cons y t =>
    rw [hc] at e key
    simp at e
    have := key y (by simp)
    rw [← e.1] at this
    simp [String.toList_append] at this

/-- **All of them**: every function gets its documentation, in order, or the first that cannot makes the call fail. -/
theorem all (l : List Fn) (r : List (String × String)) :
    nmdocs l = some r ↔ r.map (·.1) = l.map (·.name) ∧ l.map newDoc = r.map (fun p => some p.2) := by
  induction l generalizing r with
  | nil => cases r <;> simp [nmdocs]
  | cons f l ih =>
    cases r with
    | nil =>
      unfold nmdocs
      cases newDoc f <;> simp
    | cons p r =>
      obtain ⟨n, q⟩ := p
      unfold nmdocs
      cases hf : newDoc f with
      | none => simp [hf]
      | some d =>
        simp only [Option.map_eq_some_iff, List.map_cons, List.cons.injEq, hf, Option.some.injEq, Prod.mk.injEq]
        constructor
        · rintro ⟨a, ha, ⟨rfl, rfl⟩, rfl⟩
          have := (ih a).1 ha
          exact ⟨⟨rfl, this.1⟩, rfl, this.2⟩
        · rintro ⟨⟨h1, h2⟩, h3, h4⟩
          exact ⟨r, (ih r).2 ⟨h2, h4⟩, ⟨h1.symm, h3⟩, rfl⟩

def demo : Fn := { name := "f", doc := some "Doc", args := ["x", "y", "z"], varargs := none, varkw := some "kw", defaults := some [.other "1", .text "a"] }

example : newDoc demo = some "f(x,y=1,z='a',**kw)\nDoc" := by decide +kernel
example : newDoc { demo with varargs := some "r" } = some "f(*r,x,y=1,z='a',**kw)\nDoc" := by decide +kernel
example : newDoc { demo with defaults := none } = none := by decide +kernel

end Verif.DocSig
