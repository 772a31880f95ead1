/-!
# Model of `SymmetricMapping` and `_LinkedDict` (astropysics/utils/gen.py:105-231)

A dictionary is a partial function on keys; keys and values are numbers or Python's None (`none`), which the code treats
specially.  The flags `setting`/`deling` that stop the mutual recursion are unfolded: an assignment through one direction
makes one assignment in the other, whose own recursive assignment does nothing.
-/

namespace Verif.SymMap

/-- Python objects used as keys and values. -/
abbrev Key := Option Int

/-- A dict. -/
abbrev Dict := Key → Option Key

/-- `forward` and `backward`. -/
structure State where
  fwd : Dict
  back : Dict

/-- Exceptions. -/
inductive Exc
  | keyError | nameError
deriving DecidableEq, Repr

/-- Plain dict update. -/
def set (d : Dict) (k : Key) (v : Key) : Dict := fun j => if j = k then some v else d j

/-- Plain dict deletion. -/
def del (d : Dict) (k : Key) : Dict := fun j => if j = k then none else d j

/-- `self[key] if key in self else None` followed by the test `is not None` (astropysics/utils/gen.py:167-168): None values
count as absent. -/
def present (d : Dict) (k : Key) : Bool :=
  match d k with
  | some (some _) => true
  | _ => false

/-- `a[key] = val` with linked dict `b` (astropysics/utils/gen.py:165-185): the new pair is stored in `a`, then in `b`
unless `b` already has the value as a key, in which case `a` is restored and KeyError raised. -/
def setBoth (a b : Dict) (k v : Key) : (Dict × Dict) × Except Exc Unit :=
  let a1 := set a k v
  if present b v then
    ((if present a k then (match a k with | some old => set a1 k old | none => a1) else del a1 k, b), .error .keyError)
  else ((a1, set b v k), .ok ())

/-- `del a[key]` with linked dict `b` (astropysics/utils/gen.py:186-195): a value missing in `b` raises KeyError after
the deletion in `a`. -/
def delBoth (a b : Dict) (k : Key) : (Dict × Dict) × Except Exc Unit :=
  match a k with
  | none => ((a, b), .error .keyError)
  | some v =>
    match b v with
    | none => ((del a k, b), .error .keyError)
    | some _ => ((del a k, del b v), .ok ())

/-- Public operations; the flag says through which direction (true: forward). -/
inductive Op
  | set (forward : Bool) (k v : Key)
  | del (forward : Bool) (k : Key)
  | pop (forward : Bool) (k : Key)
deriving DecidableEq, Repr

/-- One call.  `pop` raises NameError (astropysics/utils/gen.py:200-221: `key` is not defined). -/
def step (st : State) : Op → State × Except Exc Unit
  | .set true k v => let r := setBoth st.fwd st.back k v; (⟨r.1.1, r.1.2⟩, r.2)
  | .set false k v => let r := setBoth st.back st.fwd k v; (⟨r.1.2, r.1.1⟩, r.2)
  | .del true k => let r := delBoth st.fwd st.back k; (⟨r.1.1, r.1.2⟩, r.2)
  | .del false k => let r := delBoth st.back st.fwd k; (⟨r.1.2, r.1.1⟩, r.2)
  | .pop _ _ => (st, .error .nameError)

/-- An empty mapping. -/
def init : State := ⟨fun _ => none, fun _ => none⟩

/-- A history. -/
def run (st : State) (ops : List Op) : State := ops.foldl (fun st op => (step st op).1) st

end Verif.SymMap
