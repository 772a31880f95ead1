import Mathlib.Data.Rat.Lemmas
import Mathlib.Algebra.Order.Field.Rat
import Mathlib.Tactic.Linarith

/-!
# Values written as Python literals (astropysics/external/configobj.py 142-220, 1653-1657, 1971-1983, 2040-2065) (C190)

With `unrepr=True` values are written with `repr` and read back with `unrepr`, which builds the value from the tree of Python's `compiler`.  Modelled: the tree of the `repr` of a value
(Python's grammar: numbers are without sign, `-3` is UnarySub, `(1+2j)` Add, `(1-2j)` Sub, `nan` and `None` names, sets calls) and the builder.  Numbers are exact; the two zeros of floats
are the same.  Equality of dictionary keys is a parameter.
-/

namespace Verif.ConfigUnrepr

inductive Err
  /-- UnknownType -/
  | unknown
  | attribute
  | type
  | value
  | stop
  deriving DecidableEq

mutual
/-- Values of Python. -/
inductive Val
  | none
  | bool (b : Bool)
  | int (n : ℤ)
  | flt (q : ℚ)
  /-- nan, inf (`neg = false`) and -inf -/
  | special (name : String) (neg : Bool)
  | cplx (re im : ℚ)
  | str (s : String)
  | list (l : Vals)
  | tuple (l : Vals)
  | dict (l : Pairs)
  /-- sets and other objects: the `repr` is a call -/
  | other
/-- Elements. -/
inductive Vals
  | nil
  | cons (v : Val) (l : Vals)
/-- Items of a dictionary. -/
inductive Pairs
  | nil
  | cons (k v : Val) (l : Pairs)
end

/-- Values of `Const`. -/
inductive Konst
  | int (n : ℕ)
  | flt (q : ℚ)
  | imag (q : ℚ)
  | str (s : String)

mutual
/-- Nodes of `compiler.ast`. -/
inductive Node
  | const (c : Konst)
  | name (s : String)
  | list (l : Nodes)
  | tuple (l : Nodes)
  /-- children are keys and values in turn -/
  | dict (l : Nodes)
  | unarySub (n : Node)
  | unaryAdd (n : Node)
  | add (a b : Node)
  | sub (a b : Node)
  | call
inductive Nodes
  | nil
  | cons (n : Node) (l : Nodes)
end

/-- A number with its sign. -/
def signed (neg : Bool) (c : Konst) : Node := if neg then .unarySub (.const c) else .const c

mutual
/-- The tree of `repr(value)`. -/
def ast : Val → Node
  | .none => .name "None"
  | .bool b => .name (if b then "True" else "False")
  | .int n => signed (decide (n < 0)) (.int n.natAbs)
  | .flt q => signed (decide (q < 0)) (.flt |q|)
  | .special s neg => if neg then .unarySub (.name s) else .name s
  | .cplx re im =>
    if re = 0 then signed (decide (im < 0)) (.imag |im|)
    else if im < 0 then .sub (signed (decide (re < 0)) (.flt |re|)) (.const (.imag |im|))
    else .add (signed (decide (re < 0)) (.flt |re|)) (.const (.imag |im|))
  | .str s => .const (.str s)
  | .list l => .list (astAll l)
  | .tuple l => .tuple (astAll l)
  | .dict l => .dict (astPairs l)
  | .other => .call
def astAll : Vals → Nodes
  | .nil => .nil
  | .cons v l => .cons (ast v) (astAll l)
def astPairs : Pairs → Nodes
  | .nil => .nil
  | .cons k v l => .cons (ast k) (.cons (ast v) (astPairs l))
end

/-- `build_Const`, configobj.py 166-167: the value of a constant; other nodes have no attribute `value`. -/
def buildConst : Node → Except Err Val
  | .const (.int n) => .ok (.int n)
  | .const (.flt q) => .ok (.flt q)
  | .const (.imag q) => .ok (.cplx 0 q)
  | .const (.str s) => .ok (.str s)
  | _ => .error .attribute

/-- The minus sign of Python. -/
def neg : Val → Except Err Val
  | .int n => .ok (.int (-n))
  | .flt q => .ok (.flt (-q))
  | .cplx re im => .ok (.cplx (-re) (-im))
  | .bool b => .ok (.int (if b then -1 else 0))
  | _ => .error .type

/-- `build_Name`, configobj.py 179-188. -/
def buildName (s : String) : Except Err Val :=
  if s = "None" then .ok .none else if s = "True" then .ok (.bool true) else if s = "False" then .ok (.bool false) else .error .unknown

/-- The first argument of `build_Add` as a float, configobj.py 192-195: TypeError is turned into UnknownType. -/
def toFloat : Val → Except Err ℚ
  | .int n => .ok n
  | .flt q => .ok q
  | .str _ => .error .value
  | _ => .error .unknown

/-- `build_Add`, configobj.py 190-198. -/
def buildAdd (a b : Node) : Except Err Val :=
  match buildConst a, buildConst b with
  | .ok real, .ok imag =>
    match toFloat real with
    | .error e => .error e
    | .ok r => match imag with
      | .cplx re im => if re ≠ 0 then .error .unknown else .ok (.cplx (r + re) im)
      | _ => .error .unknown
  | .error e, _ => .error e
  | _, .error e => .error e

mutual
/-- Whether a value can be a key. -/
def hashable : Val → Bool
  | .list _ => false
  | .dict _ => false
  | .tuple l => hashableAll l
  | _ => true
def hashableAll : Vals → Bool
  | .nil => true
  | .cons v l => hashable v && hashableAll l
end

/-- `d[k] = v`. -/
def insert (eqv : Val → Val → Bool) : Pairs → Val → Val → Pairs
  | .nil, k, v => .cons k v .nil
  | .cons k' v' r, k, v => if eqv k' k then .cons k' v r else .cons k' v' (insert eqv r k v)

/-- The loop of `build_Dict`, configobj.py 169-174. -/
def mkDict (eqv : Val → Val → Bool) (d : Pairs) : Vals → Except Err Pairs
  | .nil => .ok d
  | .cons _ .nil => .error .stop
  | .cons k (.cons v r) => if hashable k then mkDict eqv (insert eqv d k v) r else .error .type

mutual
/-- `Builder.build`, configobj.py 155-213 (`build_Getattr` is not modelled: no `repr` here has attributes). -/
def build (eqv : Val → Val → Bool) : Node → Except Err Val
  | .const c => buildConst (.const c)
  | .name s => buildName s
  | .list l => match buildAll eqv l with
    | .ok vs => .ok (.list vs)
    | .error e => .error e
  | .tuple l => match buildAll eqv l with
    | .ok vs => .ok (.tuple vs)
    | .error e => .error e
  | .dict l => match buildAll eqv l with
    | .error e => .error e
    | .ok vs => match mkDict eqv .nil vs with
      | .error e => .error e
      | .ok d => .ok (.dict d)
  | .unarySub n => match buildConst n with
    | .error e => .error e
    | .ok v => neg v
  | .unaryAdd n => buildConst n
  | .add a b => buildAdd a b
  | .sub _ _ => .error .unknown
  | .call => .error .unknown
def buildAll (eqv : Val → Val → Bool) : Nodes → Except Err Vals
  | .nil => .ok .nil
  | .cons n l => match build eqv n with
    | .error e => .error e
    | .ok v => match buildAll eqv l with
      | .error e => .error e
      | .ok vs => .ok (.cons v vs)
end

/-- What `write` does with a setting, configobj.py 2050-2066, 1971-1978: every dictionary is taken for a section, whose depth is asked for; other values are written with `repr`. -/
def writeValue : Val → Except Err Node
  | .dict _ => .error .attribute
  | v => .ok (ast v)

/-- A setting written and read again. -/
def writtenRead (eqv : Val → Val → Bool) (v : Val) : Except Err Val :=
  match writeValue v with
  | .error e => .error e
  | .ok n => build eqv n

/-! ## Specification -/

mutual
/-- Values that survive: no nan, infinity or set in them, and of complex numbers those without real part and those with positive real part and imaginary part not negative. -/
def Fine : Val → Prop
  | .special _ _ => False
  | .other => False
  | .cplx re im => re = 0 ∨ (0 < re ∧ 0 ≤ im)
  | .list l => FineAll l
  | .tuple l => FineAll l
  | .dict l => FinePairs l
  | _ => True
def FineAll : Vals → Prop
  | .nil => True
  | .cons v l => Fine v ∧ FineAll l
def FinePairs : Pairs → Prop
  | .nil => True
  | .cons k v l => Fine k ∧ Fine v ∧ FinePairs l
end

/-- The keys. -/
def Pairs.keys : Pairs → List Val
  | .nil => []
  | .cons k _ l => k :: l.keys

mutual
/-- Dictionaries have hashable keys, no two of them equal; special numbers are called nan and inf. -/
def Valid (eqv : Val → Val → Bool) : Val → Prop
  | .special s _ => s = "nan" ∨ s = "inf"
  | .list l => ValidAll eqv l
  | .tuple l => ValidAll eqv l
  | .dict l => ValidPairs eqv l ∧ l.keys.Pairwise (fun a b => eqv a b = false) ∧ ∀ k ∈ l.keys, hashable k = true
  | _ => True
def ValidAll (eqv : Val → Val → Bool) : Vals → Prop
  | .nil => True
  | .cons v l => Valid eqv v ∧ ValidAll eqv l
def ValidPairs (eqv : Val → Val → Bool) : Pairs → Prop
  | .nil => True
  | .cons k v l => Valid eqv k ∧ Valid eqv v ∧ ValidPairs eqv l
end

/-! ## Proofs -/

/-- Keys and values in turn. -/
def flat : Pairs → Vals
  | .nil => .nil
  | .cons k v l => .cons k (.cons v (flat l))

def append : Pairs → Pairs → Pairs
  | .nil, m => m
  | .cons k v l, m => .cons k v (append l m)

theorem append_nil : ∀ l, append l .nil = l
  | .nil => rfl
  | .cons k v l => by rw [append, append_nil l]

theorem append_assoc : ∀ a b c, append (append a b) c = append a (append b c)
  | .nil, _, _ => rfl
  | .cons k v l, b, c => by rw [append, append, append, append_assoc l b c]

theorem keys_append : ∀ a b, (append a b).keys = a.keys ++ b.keys
  | .nil, _ => rfl
  | .cons k v l, b => by rw [append, Pairs.keys, Pairs.keys, keys_append l b]; rfl

theorem insert_new (eqv : Val → Val → Bool) (k v : Val) : ∀ d : Pairs, (∀ k' ∈ d.keys, eqv k' k = false) → insert eqv d k v = append d (.cons k v .nil)
  | .nil, _ => rfl
  | .cons k' v' r, h => by
    rw [insert, if_neg (by rw [h k' (by simp [Pairs.keys])]; simp), insert_new eqv k v r fun x hx => h x (by simp [Pairs.keys, hx])]
    rfl

theorem mkDict_ok (eqv : Val → Val → Bool) : ∀ (ps d : Pairs), ((append d ps).keys.Pairwise fun a b => eqv a b = false) → (∀ k ∈ ps.keys, hashable k = true) →
    mkDict eqv d (flat ps) = .ok (append d ps)
  | .nil, d, _, _ => by rw [flat, mkDict, append_nil]
  | .cons k v l, d, hp, hh => by
    rw [flat, mkDict, if_pos (hh k (by simp [Pairs.keys]))]
    have hk : ∀ k' ∈ d.keys, eqv k' k = false := by
      intro k' hk'
      rw [keys_append, List.pairwise_append] at hp
      exact hp.2.2 k' hk' k (by simp [Pairs.keys])
    rw [insert_new eqv k v d hk, mkDict_ok eqv l]
    · rw [append_assoc]; rfl
    · rw [append_assoc]; exact hp
    · exact fun x hx => hh x (by simp [Pairs.keys, hx])

theorem build_cplx (eqv : Val → Val → Bool) (re im : ℚ) :
    ((re = 0 ∨ (0 < re ∧ 0 ≤ im)) → build eqv (ast (.cplx re im)) = .ok (.cplx re im)) ∧
    (¬ (re = 0 ∨ (0 < re ∧ 0 ≤ im)) → ∃ e, build eqv (ast (.cplx re im)) = .error e) := by
  rw [ast]
  by_cases h0 : re = 0
  · subst h0
    refine ⟨fun _ => ?_, fun h => absurd (Or.inl rfl) h⟩
    rw [if_pos rfl]
    by_cases hi : im < 0
    · simp [signed, hi, build, buildConst, neg, abs_of_neg]
    · simp [signed, hi, build, buildConst, abs_of_nonneg (not_lt.1 hi)]
  · rw [if_neg h0]
    by_cases hi : im < 0
    · rw [if_pos hi]
      exact ⟨fun h => by rcases h with h | h; exacts [absurd h h0, absurd h.2 (not_le.2 hi)], fun _ => ⟨_, rfl⟩⟩
    · rw [if_neg hi]
      by_cases hr : re < 0
      · refine ⟨fun h => by rcases h with h | h; exacts [absurd h h0, absurd h.1 (not_lt.2 hr.le)], fun _ => ⟨.attribute, ?_⟩⟩
        simp [signed, hr, build, buildAdd, buildConst]
      · have hp : 0 < re := lt_of_le_of_ne (not_lt.1 hr) (Ne.symm h0)
        refine ⟨fun _ => ?_, fun h => absurd (Or.inr ⟨hp, not_lt.1 hi⟩) h⟩
        simp [signed, hr, build, buildAdd, buildConst, toFloat, abs_of_pos hp, abs_of_nonneg (not_lt.1 hi)]

mutual
theorem build_spec (eqv : Val → Val → Bool) : ∀ v, Valid eqv v → (Fine v → build eqv (ast v) = .ok v) ∧ (¬ Fine v → ∃ e, build eqv (ast v) = .error e)
  | .none, _ => ⟨fun _ => rfl, fun h => absurd trivial h⟩
  | .bool b, _ => ⟨fun _ => by cases b <;> simp [ast, build, buildName], fun h => absurd trivial h⟩
  | .int n, _ => ⟨fun _ => by
      by_cases h : n < 0
      · simp only [ast, signed, h, decide_true, if_true, build, buildConst, neg]; congr 2; omega
      · simp only [ast, signed, h, decide_false, Bool.false_eq_true, if_false, build, buildConst]; congr 2; omega, fun h => absurd trivial h⟩
  | .flt q, _ => ⟨fun _ => by
      by_cases h : q < 0
      · simp [ast, signed, h, build, buildConst, neg, abs_of_neg]
      · simp [ast, signed, h, build, buildConst, abs_of_nonneg (not_lt.1 h)], fun h => absurd trivial h⟩
  | .special s ng, hv => ⟨fun h => absurd h (by simp [Fine]), fun _ => by
      cases ng
      · refine ⟨.unknown, ?_⟩
        rcases hv with rfl | rfl <;> simp [ast, build, buildName]
      · exact ⟨.attribute, by simp [ast, build, buildConst]⟩⟩
  | .cplx re im, _ => build_cplx eqv re im
  | .str s, _ => ⟨fun _ => rfl, fun h => absurd trivial h⟩
  | .list l, hv => by
    have ih := buildAll_spec eqv l (by rw [Valid] at hv; exact hv)
    refine ⟨fun h => ?_, fun h => ?_⟩
    · rw [Fine] at h; rw [ast, build, ih.1 h]
    · rw [Fine] at h; obtain ⟨e, he⟩ := ih.2 h; exact ⟨e, by rw [ast, build, he]⟩
  | .tuple l, hv => by
    have ih := buildAll_spec eqv l (by rw [Valid] at hv; exact hv)
    refine ⟨fun h => ?_, fun h => ?_⟩
    · rw [Fine] at h; rw [ast, build, ih.1 h]
    · rw [Fine] at h; obtain ⟨e, he⟩ := ih.2 h; exact ⟨e, by rw [ast, build, he]⟩
  | .dict l, hv => by
    rw [Valid] at hv
    have ih := buildPairs_spec eqv l hv.1
    refine ⟨fun h => ?_, fun h => ?_⟩
    · rw [Fine] at h
      rw [ast, build, ih.1 h]
      dsimp only
      rw [mkDict_ok eqv l .nil hv.2.1 hv.2.2]
      rfl
    · rw [Fine] at h; obtain ⟨e, he⟩ := ih.2 h; exact ⟨e, by rw [ast, build, he]⟩
  | .other, _ => ⟨fun h => absurd h (by simp [Fine]), fun _ => ⟨_, rfl⟩⟩
theorem buildAll_spec (eqv : Val → Val → Bool) : ∀ l, ValidAll eqv l → (FineAll l → buildAll eqv (astAll l) = .ok l) ∧ (¬ FineAll l → ∃ e, buildAll eqv (astAll l) = .error e)
  | .nil, _ => ⟨fun _ => rfl, fun h => absurd trivial h⟩
  | .cons v l, hv => by
    rw [ValidAll] at hv
    have h1 := build_spec eqv v hv.1
    have h2 := buildAll_spec eqv l hv.2
    rw [FineAll, astAll, buildAll]
    refine ⟨fun h => by rw [h1.1 h.1]; dsimp only; rw [h2.1 h.2], fun h => ?_⟩
    by_cases hf : Fine v
    · rw [h1.1 hf]
      obtain ⟨e, he⟩ := h2.2 fun h' => h ⟨hf, h'⟩
      exact ⟨e, by dsimp only; rw [he]⟩
    · obtain ⟨e, he⟩ := h1.2 hf
      exact ⟨e, by rw [he]⟩
theorem buildPairs_spec (eqv : Val → Val → Bool) : ∀ l, ValidPairs eqv l →
    (FinePairs l → buildAll eqv (astPairs l) = .ok (flat l)) ∧ (¬ FinePairs l → ∃ e, buildAll eqv (astPairs l) = .error e)
  | .nil, _ => ⟨fun _ => rfl, fun h => absurd trivial h⟩
  | .cons k v l, hv => by
    rw [ValidPairs] at hv
    have h0 := build_spec eqv k hv.1
    have h1 := build_spec eqv v hv.2.1
    have h2 := buildPairs_spec eqv l hv.2.2
    rw [FinePairs, astPairs, buildAll, buildAll]
    refine ⟨fun h => by rw [h0.1 h.1, h1.1 h.2.1, h2.1 h.2.2]; rfl, fun h => ?_⟩
    by_cases hk : Fine k
    · rw [h0.1 hk]
      by_cases hf : Fine v
      · rw [h1.1 hf]
        obtain ⟨e, he⟩ := h2.2 fun h' => h ⟨hk, hf, h'⟩
        exact ⟨e, by dsimp only; rw [he]⟩
      · obtain ⟨e, he⟩ := h1.2 hf
        exact ⟨e, by dsimp only; rw [he]⟩
    · obtain ⟨e, he⟩ := h0.2 hk
      exact ⟨e, by rw [he]⟩
end

/-- C190.  `unrepr(repr(v))` is `v` exactly if the value is fine (no nan, infinity, set or mixed complex number anywhere in it); otherwise it is an error, never another value. -/
theorem unrepr_iff (eqv : Val → Val → Bool) (v : Val) (hv : Valid eqv v) :
    (build eqv (ast v) = .ok v ↔ Fine v) ∧ ((∃ e, build eqv (ast v) = .error e) ↔ ¬ Fine v) := by
  obtain ⟨h1, h2⟩ := build_spec eqv v hv
  by_cases h : Fine v
  · rw [h1 h]; simp [h]
  · obtain ⟨e, he⟩ := h2 h
    rw [he]; simp [h]

/-- C190.  A setting is written and read back equal exactly if it is fine and is not itself a dictionary (which is taken for a section when written); otherwise there is an error. -/
theorem setting_iff (eqv : Val → Val → Bool) (v : Val) (hv : Valid eqv v) :
    (writtenRead eqv v = .ok v ↔ Fine v ∧ ∀ l, v ≠ .dict l) ∧ ((∃ e, writtenRead eqv v = .error e) ↔ ¬ (Fine v ∧ ∀ l, v ≠ .dict l)) ∧
    ∀ l, writeValue (.dict l) = .error .attribute := by
  obtain ⟨h1, h2⟩ := unrepr_iff eqv v hv
  refine ⟨?_, ?_, fun _ => rfl⟩ <;> cases v <;> simp_all [writtenRead, writeValue]

/-- C190.  The errors: infinities without sign, nan, sets and complex numbers with negative imaginary part are UnknownType; a negative real part (or -inf) is AttributeError. -/
theorem unrepr_errors (eqv : Val → Val → Bool) (re im : ℚ) :
    writtenRead eqv (.special "nan" false) = .error .unknown ∧ writtenRead eqv (.special "inf" false) = .error .unknown ∧ writtenRead eqv (.special "inf" true) = .error .attribute ∧
    writtenRead eqv .other = .error .unknown ∧ (re ≠ 0 → im < 0 → writtenRead eqv (.cplx re im) = .error .unknown) ∧
    (re < 0 → 0 ≤ im → writtenRead eqv (.cplx re im) = .error .attribute) := by
  refine ⟨by simp [writtenRead, writeValue, ast, build, buildName], by simp [writtenRead, writeValue, ast, build, buildName], by simp [writtenRead, writeValue, ast, build, buildConst], rfl, ?_, ?_⟩
  · intro h1 h2
    simp [writtenRead, writeValue, ast, h1, h2, build]
  · intro h1 h2
    simp [writtenRead, writeValue, ast, h1.ne, h1, not_lt.2 h2, build, buildAdd, signed, buildConst]

/-- C190.  What was not written by `repr`: only these names are known, a sign may be before a number only, sums are those of a number and an imaginary number, keys must be hashable, later
equal keys replace earlier values. -/
theorem builder_exact (eqv : Val → Val → Bool) (s : String) (n : Node) (k v w : Val) (hk : hashable k = true) (he : eqv k k = true) :
    (build eqv (.name s) = .error .unknown ↔ s ≠ "None" ∧ s ≠ "True" ∧ s ≠ "False") ∧
    (∀ l, build eqv (.unarySub (.list l)) = .error .attribute) ∧ (build eqv (.unaryAdd n) = buildConst n) ∧
    mkDict eqv .nil (.cons k (.cons v (.cons k (.cons w .nil)))) = .ok (.cons k w .nil) ∧
    (∀ l, mkDict eqv .nil (.cons (.list l) (.cons v .nil)) = .error .type) := by
  refine ⟨?_, fun _ => rfl, rfl, ?_, fun _ => rfl⟩
  · simp only [build, buildName]
    split_ifs with h1 h2 h3 <;> simp_all
  · simp [mkDict, hk, insert, he]

/-- A case: `[{'a': (1, -2.5), 3: [None, True, (1+2j)]}]` is read back, `[1, (1-2j)]` is not. -/
theorem example_unrepr (eqv : Val → Val → Bool) (h : eqv (.str "a") (.int 3) = false) :
    let d := Val.list (.cons (.dict (.cons (.str "a") (.tuple (.cons (.int 1) (.cons (.flt (-5/2)) .nil))) (.cons (.int 3) (.list (.cons .none (.cons (.bool true) (.cons (.cplx 1 2) .nil)))) .nil))) .nil)
    writtenRead eqv d = .ok d ∧ ∃ e, writtenRead eqv (.list (.cons (.int 1) (.cons (.cplx 1 (-2)) .nil))) = .error e := by
  intro d
  constructor
  · refine ((setting_iff eqv d ?_).1).2 ⟨?_, by simp [d]⟩
    · simp [d, Valid, ValidPairs, ValidAll, Pairs.keys, hashable, h]
    · simp [d, Fine, FinePairs, FineAll]
  · refine ((setting_iff eqv _ ?_).2.1).2 ?_
    · simp [Valid, ValidAll]
    · simp [Fine, FineAll]

end Verif.ConfigUnrepr
