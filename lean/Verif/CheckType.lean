/-!
# Model of `check_type` (astropysics/utils/gen.py:51-98)

Values and classes are abstract; `isinst` is `isinstance`, `dt` the dtype of a value that is a numpy array.
A class object is new-style or old-style (Python 2); an old-style class is not an instance of `type` and calling it
constructs an object (true unless the class says otherwise; the outcome is `construct`).
-/

namespace Verif.CheckType

/-- The environment. -/
structure World where
  Val : Type
  isinst : Val → Nat → Bool
  dt : Val → Option Nat
  construct : Nat → Val → Except Unit Bool

/-- One type given: a new-style class, an old-style class, a dtype. -/
inductive Ty
  | cls (c : Nat)
  | old (c : Nat)
  | dtype (d : Nat)
deriving DecidableEq, Repr

/-- An entry of a sequence of types: a type or something `isinstance` rejects with a TypeError (None, a character). -/
inductive Entry
  | ty (t : Ty)
  | junk
deriving DecidableEq, Repr

/-- The argument `types`. -/
inductive Types (w : World)
  | none
  | seq (l : List Entry)
  | one (t : Ty)
  | pred (f : w.Val → Bool)
  | invalid

/-- Outcomes. -/
inductive Out
  | ok | typeError | valueError | otherError
deriving DecidableEq, Repr

/-- Does the value match the entry (astropysics/utils/gen.py:77-87)? -/
def matches1 (w : World) (v : w.Val) : Ty → Bool
  | .cls c => w.isinst v c
  | .old c => w.isinst v c
  | .dtype d => match w.dt v with
    | some d' => d' = d
    | none => false

/-- The loop (astropysics/utils/gen.py:76-88). -/
def checkSeq (w : World) (v : w.Val) : List Entry → Out
  | [] => .typeError
  | .junk :: _ => .typeError
  | .ty t :: l => if matches1 w v t then .ok else checkSeq w v l

/-- `check_type` (astropysics/utils/gen.py:70-98); `v = none` is the value None. -/
def checkType (w : World) (types : Types w) (v : Option w.Val) (acceptnone : Bool) : Out :=
  match v with
  | none => if acceptnone then .ok else .typeError
  | some v =>
    match types with
    | .none => .ok
    | .seq l => checkSeq w v l
    | .one (.cls c) => checkSeq w v [.ty (.cls c)]
    | .one (.dtype d) => checkSeq w v [.ty (.dtype d)]
    | .one (.old c) => match w.construct c v with
      | .ok true => .ok
      | .ok false => .typeError
      | .error _ => .otherError
    | .pred f => if f v then .ok else .typeError
    | .invalid => .valueError

/-! ## C23 -/

/-- **Specification**: the value is of the type. -/
def IsOf (w : World) (v : w.Val) : Ty → Prop
  | .cls c => w.isinst v c = true
  | .old c => w.isinst v c = true
  | .dtype d => w.dt v = some d

/-- **Specification**: what C23 says is accepted. -/
def Accepted (w : World) (types : Types w) (v : Option w.Val) (acceptnone : Bool) : Prop :=
  match v with
  | none => acceptnone = true
  | some v => match types with
    | .none => True
    | .seq l => ∃ t, .ty t ∈ l ∧ IsOf w v t
    | .one t => IsOf w v t
    | .pred f => f v = true
    | .invalid => False

theorem matches1_iff (w : World) (v : w.Val) (t : Ty) : matches1 w v t = true ↔ IsOf w v t := by
  cases t with
  | cls c => rfl
  | old c => rfl
  | dtype d =>
    simp only [matches1, IsOf]
    cases w.dt v with
    | none => simp
    | some d' => simp

/-- What a sequence accepts in general: a match before the first entry that is no type. -/
theorem checkSeq_iff (w : World) (v : w.Val) (l : List Entry) :
    (checkSeq w v l = .ok ↔ ∃ a t b, l = a ++ .ty t :: b ∧ .junk ∉ a ∧ IsOf w v t) ∧
    (checkSeq w v l = .ok ∨ checkSeq w v l = .typeError) := by
  induction l with
  | nil => refine ⟨⟨?_, ?_⟩, ?_⟩ <;> simp [checkSeq]
  | cons e l ih =>
    cases e with
    | junk =>
      refine ⟨⟨by simp [checkSeq], ?_⟩, by simp [checkSeq]⟩
      rintro ⟨a, t, b, h, hj, _⟩
      cases a with
      | nil => simp at h
      | cons x a => simp at h; simp [← h.1] at hj
    | ty t =>
      simp only [checkSeq]
      by_cases hm : matches1 w v t = true
      · simp only [hm, if_true, true_or, and_true, true_iff]
        exact ⟨[], t, l, rfl, by simp, (matches1_iff w v t).mp hm⟩
      · rw [if_neg hm]
        refine ⟨?_, ih.2⟩
        rw [ih.1]
        constructor
        · rintro ⟨a, u, b, h, hj, hu⟩
          exact ⟨.ty t :: a, u, b, by rw [h]; rfl, by simp [hj], hu⟩
        · rintro ⟨a, u, b, h, hj, hu⟩
          cases a with
          | nil =>
            simp only [List.nil_append, List.cons.injEq, Entry.ty.injEq] at h
            rw [← h.1, ← matches1_iff] at hu
            exact absurd hu hm
          | cons x a =>
            simp only [List.cons_append, List.cons.injEq] at h
            exact ⟨a, u, b, h.2, by simp at hj; exact hj.2, hu⟩

/-- The arguments C23 is proved for: sequences of types only, and no old-style class on its own. -/
def Proper {w : World} : Types w → Prop
  | .seq l => .junk ∉ l
  | .one (.old _) => False
  | _ => True

/-- **C23**: `check_type` returns silently exactly for the accepted values; otherwise it raises TypeError (ValueError for an
argument that is no type specification).
Missing: an old-style class given on its own, for which it is false (`old_class_accepts`). -/
theorem checkType_iff (w : World) (types : Types w) (hp : Proper types) (v : Option w.Val) (acceptnone : Bool) :
    (checkType w types v acceptnone = .ok ↔ Accepted w types v acceptnone) ∧
    (¬ Accepted w types v acceptnone → checkType w types v acceptnone = .typeError ∨
      (types = .invalid ∧ checkType w types v acceptnone = .valueError)) := by
  cases v with
  | none => cases acceptnone <;> simp [checkType, Accepted]
  | some v =>
    cases types with
    | none => simp [checkType, Accepted]
    | invalid => simp [checkType, Accepted]
    | pred f => cases h : f v <;> simp [checkType, Accepted, h]
    | seq l =>
      have hs := checkSeq_iff w v l
      have : (∃ a t b, l = a ++ .ty t :: b ∧ Entry.junk ∉ a ∧ IsOf w v t) ↔ ∃ t, .ty t ∈ l ∧ IsOf w v t := by
        constructor
        · rintro ⟨a, t, b, rfl, _, h⟩; exact ⟨t, by simp, h⟩
        · rintro ⟨t, ht, h⟩
          obtain ⟨a, b, rfl⟩ := List.append_of_mem ht
          exact ⟨a, t, b, rfl, fun hj => hp (List.mem_append_left _ hj), h⟩
      simp only [checkType, Accepted]
      refine ⟨hs.1.trans this, ?_⟩
      intro h
      rcases hs.2 with h' | h'
      · exact absurd (this.mp (hs.1.mp h')) h
      · exact Or.inl h'
    | one t =>
      have h1 := checkSeq_iff w v [.ty t]
      have : (∃ a t' b, [Entry.ty t] = a ++ .ty t' :: b ∧ Entry.junk ∉ a ∧ IsOf w v t') ↔ IsOf w v t := by
        constructor
        · rintro ⟨a, t', b, h, _, h'⟩
          cases a with
          | nil => simp at h; rw [h.1]; exact h'
          | cons x a => simp at h
        · intro h; exact ⟨[], t, [], rfl, by simp, h⟩
      have key : (checkSeq w v [.ty t] = .ok ↔ IsOf w v t) ∧
          (¬ IsOf w v t → checkSeq w v [.ty t] = .typeError ∨
            (Types.one (w := w) t = .invalid ∧ checkSeq w v [.ty t] = .valueError)) := by
        refine ⟨h1.1.trans this, ?_⟩
        intro h
        rcases h1.2 with h' | h'
        · exact absurd (this.mp (h1.1.mp h')) h
        · exact Or.inl h'
      cases t with
      | cls c => exact key
      | dtype d => exact key
      | old c => exact absurd hp id

/-- A world with two unrelated classes; constructing either from anything succeeds. -/
def exWorld : World where
  Val := Nat
  isinst := fun v c => v % 2 = c
  dt := fun v => if v = 4 then some 8 else none
  construct := fun _ _ => .ok true

/-- C23 fails for an old-style class: a value that is no instance is accepted, because the class is called. -/
theorem old_class_accepts : checkType exWorld (.one (.old 1)) (some (2 : Nat)) true = .ok ∧
    ¬ IsOf exWorld (2 : Nat) (.old 1) := by
  refine ⟨rfl, ?_⟩
  simp [IsOf, exWorld]

/-- Instances: a sequence with a dtype, accepted and rejected. -/
example : Proper (w := exWorld) (.seq [.ty (.cls 1), .ty (.dtype 8)]) := by simp [Proper]
example : checkType exWorld (.seq [.ty (.cls 1), .ty (.dtype 8)]) (some (4 : Nat)) true = .ok := by decide
example : checkType exWorld (.seq [.ty (.cls 1), .ty (.dtype 8)]) (some (6 : Nat)) true = .typeError := by decide
example : checkType exWorld (.seq [.ty (.cls 1)]) none false = .typeError := by decide

end Verif.CheckType
