import Verif.CheckType

/-!
# C23 for every argument
-/

namespace Verif.CheckType


/-- **Specification** of all arguments: as `Accepted`, but a sequence is read up to its first entry that is no
type, and an old-style class given alone is called on the value like a predicate. -/
def AcceptedAll (w : World) (types : Types w) (v : Option w.Val) (acceptnone : Bool) : Prop :=
  match v with
  | none => acceptnone = true
  | some v => match types with
    | .none => True
    | .seq l => ∃ a t b, l = a ++ .ty t :: b ∧ Entry.junk ∉ a ∧ IsOf w v t
    | .one (.old c) => w.construct c v = .ok true
    | .one t => IsOf w v t
    | .pred f => f v = true
    | .invalid => False

/-- **C23** for every argument: `check_type` returns silently iff the value is accepted in the sense of
`AcceptedAll`; otherwise it raises ValueError exactly for arguments that are no type specification, the error
of the class for an old-style class that cannot be called on the value, and TypeError in all other cases. -/
theorem checkType_exact (w : World) (types : Types w) (v : Option w.Val) (acceptnone : Bool) :
    (checkType w types v acceptnone = .ok ↔ AcceptedAll w types v acceptnone) ∧
    (checkType w types v acceptnone = .valueError ↔ v ≠ none ∧ types = .invalid) ∧
    (checkType w types v acceptnone = .otherError ↔
      ∃ x c e, v = some x ∧ types = .one (.old c) ∧ w.construct c x = .error e) := by
  cases v with
  | none => cases acceptnone <;> simp [checkType, AcceptedAll]
  | some v =>
    cases types with
    | none => simp [checkType, AcceptedAll]
    | invalid => simp [checkType, AcceptedAll]
    | pred f => cases h : f v <;> simp [checkType, AcceptedAll, h]
    | seq l =>
      have hs := checkSeq_iff w v l
      refine ⟨hs.1, ?_, ?_⟩ <;> rcases hs.2 with h | h <;> simp [checkType, h]
    | one t =>
      cases t with
      | old c =>
        cases hc : w.construct c v with
        | error e => simp [checkType, AcceptedAll, hc]
        | ok b => cases b <;> simp [checkType, AcceptedAll, hc]
      | cls c =>
        have hp := checkType_iff w (.one (.cls c)) trivial (some v) acceptnone
        have hs := (checkSeq_iff w v [.ty (.cls c)]).2
        refine ⟨hp.1, ?_, ?_⟩ <;> rcases hs with h | h <;> simp [checkType, h]
      | dtype d =>
        have hp := checkType_iff w (.one (.dtype d)) trivial (some v) acceptnone
        have hs := (checkSeq_iff w v [.ty (.dtype d)]).2
        refine ⟨hp.1, ?_, ?_⟩ <;> rcases hs with h | h <;> simp [checkType, h]

/-- Where that differs from the documented acceptance: only for an old-style class alone and for sequences with
an entry that is no type; everywhere else the two agree. -/
theorem accepted_agree_iff (w : World) (types : Types w) (v : Option w.Val) (acceptnone : Bool) (hp : Proper types) :
    AcceptedAll w types v acceptnone ↔ Accepted w types v acceptnone := by
  rw [← (checkType_exact w types v acceptnone).1, (checkType_iff w types hp v acceptnone).1]

/-- An old-style class alone: documented and actual acceptance agree iff calling it gives a true object exactly
for its instances. -/
theorem old_class_right_iff (w : World) (c : Nat) (v : w.Val) (acceptnone : Bool) :
    (checkType w (.one (.old c)) (some v) acceptnone = .ok ↔ Accepted w (.one (.old c)) (some v) acceptnone) ↔
      (w.construct c v = .ok true ↔ w.isinst v c = true) := by
  rw [(checkType_exact w _ _ _).1]; rfl

/-- Instances of each case. -/
example : checkType exWorld (.seq [.junk, .ty (.cls 0)]) (some (2 : Nat)) true = .typeError ∧
    Accepted exWorld (.seq [.junk, .ty (.cls 0)]) (some (2 : Nat)) true :=
  ⟨by decide, .cls 0, by simp, by simp [IsOf, exWorld]⟩
example : ¬ (exWorld.construct 1 (2 : Nat) = .ok true ↔ exWorld.isinst (2 : Nat) 1 = true) := by
  simp [exWorld]

end Verif.CheckType
