import Mathlib.Data.Rat.Lemmas
import Mathlib.Data.List.Basic
import Mathlib.Algebra.Order.Field.Rat
import Mathlib.Data.Rat.Floor
import Mathlib.Algebra.Order.Ring.Abs
import Mathlib.Tactic.Linarith
import Mathlib.Tactic.SplitIfs

/-!
# Typed access to settings and all defaults at once (astropysics/external/configobj.py 941-1083, 1179-1184) (C185)

`as_bool`, `as_list`, `as_int`, `as_float` of `Section` and `restore_defaults`.  `self[key]` is given as its value (interpolation is C153); Python's `int` and `float` of
strings are parameters; strings are those of Python 2 whose `lower` changes A to Z only.
-/

namespace Verif.ConfigAccess

inductive Err
  | key
  | value
  | type
  | attribute
  deriving DecidableEq

/-- A value in a section. -/
inductive Val
  | str (s : String)
  | num (q : ℚ)
  | bool (b : Bool)
  | none
  | list (l : List Val)
  | tuple (l : List Val)
  | sect (name : String)

/-- `_bools`, configobj.py 1179-1184. -/
def bools : List (String × Bool) := [("yes", true), ("no", false), ("on", true), ("off", false), ("1", true), ("0", false), ("true", true), ("false", false)]

/-- `str.lower`. -/
def lower (s : List Char) : List Char := s.map fun c => if 65 ≤ c.toNat ∧ c.toNat ≤ 90 then Char.ofNat (c.toNat + 32) else c

/-- `val == True`: numbers compare with truth values. -/
def eqTrue : Val → Bool
  | .num q => q = 1
  | .bool b => b
  | _ => false

/-- `val == False`. -/
def eqFalse : Val → Bool
  | .num q => q = 0
  | .bool b => !b
  | _ => false

/-- The entry of a name in the dictionary of words. -/
def word (s : List Char) : Option Bool := (bools.find? (fun p => p.1.toList = s)).map (·.2)

/-- `as_bool`, configobj.py 941-981; `none` if the key is missing. -/
def asBool : Option Val → Except Err Bool
  | none => .error .key
  | some v => if eqTrue v then .ok true else if eqFalse v then .ok false else
    match v with
    | .str s => match word (lower s.toList) with
      | some b => .ok b
      | none => .error .value
    | _ => .error .value

/-- `int` and `float` of strings; `none` for ValueError. -/
structure Numbers where
  int : String → Option ℤ
  float : String → Option ℚ

/-- Rounding toward zero. -/
def trunc (q : ℚ) : ℤ := if 0 ≤ q then q.floor else -(-q).floor

/-- `as_int`, configobj.py 984-1003. -/
def asInt (N : Numbers) : Option Val → Except Err ℤ
  | none => .error .key
  | some (.str s) => match N.int s with
    | some n => .ok n
    | none => .error .value
  | some (.num q) => .ok (trunc q)
  | some (.bool b) => .ok (if b then 1 else 0)
  -- an instance without `__int__` is an AttributeError in Python 2 only for old-style classes
  | some _ => .error .type

/-- `as_float`, configobj.py 1006-1025. -/
def asFloat (N : Numbers) : Option Val → Except Err ℚ
  | none => .error .key
  | some (.str s) => match N.float s with
    | some n => .ok n
    | none => .error .value
  | some (.num q) => .ok q
  | some (.bool b) => .ok (if b then 1 else 0)
  | some _ => .error .type

/-- `as_list`, configobj.py 1028-1045. -/
def asList : Option Val → Except Err (List Val)
  | none => .error .key
  | some (.list l) => .ok l
  | some (.tuple l) => .ok l
  | some v => .ok [v]

/-! ## C185 -/

/-- Two words are the same but for the case of letters. -/
def SameBut (a b : List Char) : Prop := lower a = lower b

/-- C185.  Only the letters A to Z change, each to the small one. -/
theorem lower_letters : (∀ p ∈ "ABCDEFGHIJKLMNOPQRSTUVWXYZ".toList.zip "abcdefghijklmnopqrstuvwxyz".toList, lower [p.1] = [p.2]) ∧
    (∀ c, c ∉ "ABCDEFGHIJKLMNOPQRSTUVWXYZ".toList → lower [c] = [c]) ∧ ∀ a b, lower (a ++ b) = lower a ++ lower b := by
  refine ⟨by decide +kernel, ?_, fun a b => by simp [lower]⟩
  intro c hc
  have key : ∀ n : Fin 26, Char.ofNat (65 + n) ∈ "ABCDEFGHIJKLMNOPQRSTUVWXYZ".toList := by decide +kernel
  unfold lower
  simp only [List.map_cons, List.map_nil, List.cons.injEq, and_true]
  split_ifs with h
  · exfalso
    apply hc
    have := key ⟨c.toNat - 65, by omega⟩
    simp only [show 65 + (c.toNat - 65) = c.toNat by omega, Char.ofNat_toNat] at this
    exact this
  · rfl

theorem word_iff (s : List Char) (b : Bool) : word s = some b ↔ ∃ w, (w, b) ∈ bools ∧ w.toList = s := by
  unfold word
  constructor
  · intro h
    cases hf : bools.find? (fun p => p.1.toList = s) with
    | none => simp [hf] at h
    | some p =>
      simp only [hf, Option.map_some, Option.some.injEq] at h
      refine ⟨p.1, ?_, by simpa using List.find?_some hf⟩
      rw [← h]
      exact List.mem_of_find?_eq_some hf
  · rintro ⟨w, hw, rfl⟩
    have : ∀ p ∈ bools, (bools.find? (fun q => q.1.toList = p.1.toList)).map (·.2) = some p.2 := by decide
    exact this _ hw

/-- C185.  A string is true or false exactly if it is one of the eight words in any case; others are ValueError. -/
theorem bool_words (s : String) :
    (asBool (some (.str s)) = .ok true ↔ ∃ w ∈ ["true", "on", "yes", "1"], SameBut s.toList w.toList) ∧
    (asBool (some (.str s)) = .ok false ↔ ∃ w ∈ ["false", "off", "no", "0"], SameBut s.toList w.toList) ∧
    (asBool (some (.str s)) = .error .value ↔ ∀ w ∈ ["true", "on", "yes", "1", "false", "off", "no", "0"], ¬ SameBut s.toList w.toList) := by
  have hl : ∀ w ∈ ["true", "on", "yes", "1", "false", "off", "no", "0"], lower w.toList = w.toList := by decide
  have hb : ∀ w b, (w, b) ∈ bools ↔ w ∈ (if b then ["true", "on", "yes", "1"] else ["false", "off", "no", "0"]) := by
    intro w b
    cases b <;> simp [bools] <;> tauto
  have key : ∀ b, word (lower s.toList) = some b ↔ ∃ w ∈ (if b then ["true", "on", "yes", "1"] else ["false", "off", "no", "0"]), SameBut s.toList w.toList := by
    intro b
    rw [word_iff]
    constructor
    · rintro ⟨w, hw, e⟩
      refine ⟨w, (hb w b).1 hw, ?_⟩
      have hw' := (hb w b).1 hw
      unfold SameBut
      rw [hl w (by cases b <;> simp at hw' ⊢ <;> tauto), e]
    · rintro ⟨w, hw, e⟩
      unfold SameBut at e
      refine ⟨w, (hb w b).2 hw, ?_⟩
      rw [e, hl w (by cases b <;> simp at hw ⊢ <;> tauto)]
  have e : asBool (some (.str s)) = match word (lower s.toList) with
      | some b => .ok b
      | none => .error .value := rfl
  rw [e]
  refine ⟨?_, ?_, ?_⟩
  · have k1 := key true
    rw [if_pos rfl] at k1
    rw [← k1]
    cases word (lower s.toList) <;> simp
  · have k1 := key false
    rw [if_neg (by simp)] at k1
    rw [← k1]
    cases word (lower s.toList) <;> simp
  · constructor
    · intro h w hw hs
      cases hw' : word (lower s.toList) with
      | some b => rw [hw'] at h; simp at h
      | none =>
        have h1 := key true
        have h2 := key false
        rw [hw'] at h1 h2
        simp only [if_true, Bool.false_eq_true, if_false, reduceCtorEq, false_iff] at h1 h2
        have : w ∈ ["true", "on", "yes", "1"] ∨ w ∈ ["false", "off", "no", "0"] := by simp at hw ⊢; tauto
        rcases this with hh | hh
        · exact h1 ⟨w, hh, hs⟩
        · exact h2 ⟨w, hh, hs⟩
    · intro h
      cases hw' : word (lower s.toList) with
      | none => rfl
      | some b =>
        obtain ⟨w, hw, hs⟩ := (key b).1 hw'
        exact absurd hs (h w (by cases b <;> simp at hw ⊢ <;> tauto))

/-- C185.  Of other values, True and 1 are true, False and 0 are false, the rest is ValueError; a missing key is KeyError. -/
theorem bool_others (v : Val) (hv : ∀ s, v ≠ .str s) :
    asBool none = .error .key ∧ (asBool (some v) = .ok true ↔ v = .bool true ∨ v = .num 1) ∧ (asBool (some v) = .ok false ↔ v = .bool false ∨ v = .num 0) ∧
    (asBool (some v) = .error .value ↔ v ≠ .bool true ∧ v ≠ .num 1 ∧ v ≠ .bool false ∧ v ≠ .num 0) := by
  refine ⟨rfl, ?_⟩
  cases v with
  | str s => exact absurd rfl (hv s)
  | num q =>
    by_cases h1 : q = 1
    · subst h1; simp [asBool, eqTrue]
    · by_cases h0 : q = 0
      · subst h0; simp [asBool, eqTrue, eqFalse]
      · simp [asBool, eqTrue, eqFalse, h1, h0]
  | bool b => cases b <;> simp [asBool, eqTrue, eqFalse]
  | none => simp [asBool, eqTrue, eqFalse]
  | list l => simp [asBool, eqTrue, eqFalse]
  | tuple l => simp [asBool, eqTrue, eqFalse]
  | sect n => simp [asBool, eqTrue, eqFalse]

/-- C185.  A list or tuple is itself, any other value the only element of the list. -/
theorem list_exact (v : Val) (l : List Val) : asList none = .error .key ∧
    (asList (some v) = .ok l ↔ v = .list l ∨ v = .tuple l ∨ (l = [v] ∧ (∀ m, v ≠ .list m) ∧ ∀ m, v ≠ .tuple m)) := by
  refine ⟨rfl, ?_⟩
  cases v <;> simp [asList] <;> exact eq_comm

/-- C185.  Numbers: a string is what Python reads or ValueError, a number is itself (an integer toward zero), lists and sections are TypeError. -/
theorem numbers_exact (N : Numbers) (s : String) (q : ℚ) (l : List Val) (n : String) :
    (∀ i, asInt N (some (.str s)) = .ok i ↔ N.int s = some i) ∧ (asInt N (some (.str s)) = .error .value ↔ N.int s = none) ∧
    (∀ x, asFloat N (some (.str s)) = .ok x ↔ N.float s = some x) ∧ (asFloat N (some (.str s)) = .error .value ↔ N.float s = none) ∧
    asFloat N (some (.num q)) = .ok q ∧ (∃ i : ℤ, asInt N (some (.num q)) = .ok i ∧ |(i : ℚ)| ≤ |q| ∧ |q| < |(i : ℚ)| + 1 ∧ 0 ≤ q * i) ∧
    asInt N (some (.list l)) = .error .type ∧ asFloat N (some (.sect n)) = .error .type ∧ asInt N none = .error .key ∧ asFloat N none = .error .key ∧
    asInt N (some (.bool true)) = .ok 1 ∧ asInt N (some (.bool false)) = .ok 0 ∧ asFloat N (some (.bool true)) = .ok 1 ∧ asFloat N (some (.bool false)) = .ok 0 := by
  refine ⟨?_, ?_, ?_, ?_, rfl, ⟨trunc q, rfl, ?_⟩, rfl, rfl, rfl, rfl, rfl, rfl, rfl, rfl⟩
  · intro i; simp only [asInt]; cases N.int s <;> simp
  · simp only [asInt]; cases N.int s <;> simp
  · intro x; simp only [asFloat]; cases N.float s <;> simp
  · simp only [asFloat]; cases N.float s <;> simp
  unfold trunc
  split_ifs with h
  · have h1 : (q.floor : ℚ) ≤ q := Rat.floor_le q
    have h2 : q < (q.floor : ℚ) + 1 := by exact_mod_cast Rat.lt_floor_add_one q
    have h3 : (0 : ℚ) ≤ (q.floor : ℚ) := by exact_mod_cast Rat.le_floor_iff.2 (by simpa using h)
    rw [abs_of_nonneg h3, abs_of_nonneg h]
    exact ⟨h1, h2, mul_nonneg h h3⟩
  · push Not at h
    have hq : 0 ≤ -q := by linarith
    have h1 : ((-q).floor : ℚ) ≤ -q := Rat.floor_le (-q)
    have h2 : -q < ((-q).floor : ℚ) + 1 := by exact_mod_cast Rat.lt_floor_add_one (-q)
    have h3 : (0 : ℚ) ≤ ((-q).floor : ℚ) := by exact_mod_cast Rat.le_floor_iff.2 (by simpa using hq)
    push_cast
    rw [abs_neg, abs_of_nonneg h3, abs_of_neg h]
    refine ⟨h1, h2, ?_⟩
    nlinarith

/-! ## All defaults -/

variable {V : Type}

mutual
/-- A section: the settings in its dictionary, the names marked as defaults, the default values and the subsections. -/
inductive Sec (V : Type)
  | mk (vals : List (String × V)) (defaults : List String) (dvs : List (String × V)) (subs : Secs V)
inductive Secs (V : Type)
  | nil
  | cons (k : String) (s : Sec V) (r : Secs V)
end

/-- Assignment in a dictionary. -/
def put (l : List (String × V)) (k : String) (v : V) : List (String × V) :=
  if k ∈ l.map (·.1) then l.map fun p => if p.1 = k then (k, v) else p else l ++ [(k, v)]

/-- The value of a key. -/
def look (l : List (String × V)) (k : String) : Option V := (l.find? (fun p => p.1 = k)).map (·.2)

/-- The loop over `default_values` with `restore_default`, configobj.py 1060-1064 and 1077-1078. -/
def restoreAll : List (String × V) → List (String × V) × List String → List (String × V) × List String
  | [], st => st
  | (k, d) :: l, st => restoreAll l (put st.1 k d, if k ∈ st.2 then st.2 else st.2 ++ [k])

/-- The names of the subsections. -/
def Secs.names : Secs V → List String
  | .nil => []
  | .cons k _ r => k :: r.names

mutual
/-- `restore_defaults`, configobj.py 1068-1081; `none` for AttributeError: a default has replaced a subsection. -/
def restore : Sec V → Option (Sec V)
  | .mk vals defs dvs subs =>
    if dvs.any (fun p => decide (p.1 ∈ subs.names)) then none else
    match restoreSubs subs with
    | none => none
    | some subs' => some (.mk (restoreAll dvs (vals, defs)).1 (restoreAll dvs (vals, defs)).2 dvs subs')
def restoreSubs : Secs V → Option (Secs V)
  | .nil => some .nil
  | .cons k s r => match restore s, restoreSubs r with
    | some s', some r' => some (.cons k s' r')
    | _, _ => none
end

/-- A subsection. -/
def In : Secs V → String → Sec V → Prop
  | .nil, _, _ => False
  | .cons k s r, k', s' => (k = k' ∧ s = s') ∨ In r k' s'

/-- The sections below a section, with the names on the way. -/
inductive At : Sec V → List String → Sec V → Prop
  | here (s : Sec V) : At s [] s
  | down (vals : List (String × V)) (defs : List String) (dvs : List (String × V)) (subs : Secs V) (k : String) (path : List String) (s t : Sec V) :
      In subs k s → At s path t → At (.mk vals defs dvs subs) (k :: path) t

def Sec.vals : Sec V → List (String × V)
  | .mk v _ _ _ => v
def Sec.defaults : Sec V → List String
  | .mk _ d _ _ => d
def Sec.dvs : Sec V → List (String × V)
  | .mk _ _ d _ => d
def Sec.subs : Sec V → Secs V
  | .mk _ _ _ s => s

theorem look_cons (a : String × V) (l : List (String × V)) (k : String) : look (a :: l) k = if a.1 = k then some a.2 else look l k := by
  unfold look
  by_cases h : a.1 = k <;> simp [h]

theorem look_put (l : List (String × V)) (k k' : String) (v : V) : look (put l k v) k' = if k' = k then some v else look l k' := by
  unfold put
  split_ifs with h1 h2 h2
  · subst h2
    induction l with
    | nil => simp at h1
    | cons a l ih =>
      rw [List.map_cons, look_cons]
      by_cases ha : a.1 = k'
      · simp [ha]
      · simp only [ha, if_false]
        apply ih
        simp only [List.map_cons, List.mem_cons] at h1
        rcases h1 with h1 | h1
        · exact absurd h1.symm ha
        · exact h1
  · clear h1
    induction l with
    | nil => rfl
    | cons a l ih =>
      rw [List.map_cons, look_cons, look_cons, ih]
      by_cases ha : a.1 = k
      · have : ¬ k = k' := fun h => h2 h.symm
        simp [ha, this]
      · simp [ha]
  · subst h2
    induction l with
    | nil => simp [look]
    | cons a l ih =>
      simp only [List.map_cons, List.mem_cons, not_or] at h1
      rw [List.cons_append, look_cons, if_neg (fun h => h1.1 h.symm)]
      exact ih h1.2
  · induction l with
    | nil => have : ¬ k = k' := fun h => h2 h.symm
             simp [look, this]
    | cons a l ih =>
      simp only [List.map_cons, List.mem_cons, not_or] at h1
      rw [List.cons_append, look_cons, look_cons, ih h1.2]

theorem look_none (l : List (String × V)) (k : String) (h : k ∉ l.map (·.1)) : look l k = none := by
  unfold look
  rw [Option.map_eq_none_iff, List.find?_eq_none]
  intro p hp
  simp only [decide_eq_true_eq]
  rintro rfl
  exact h (List.mem_map.2 ⟨p, hp, rfl⟩)

theorem restoreAll_exact : ∀ (dvs : List (String × V)) (st : List (String × V) × List String), (dvs.map (·.1)).Nodup → ∀ k,
    look (restoreAll dvs st).1 k = (look dvs k).or (look st.1 k) ∧ (k ∈ (restoreAll dvs st).2 ↔ k ∈ st.2 ∨ k ∈ dvs.map (·.1))
  | [], st, _, k => by simp [restoreAll, look]
  | (n, d) :: l, st, h, k => by
    rw [List.map_cons, List.nodup_cons] at h
    obtain ⟨h1, h2⟩ := restoreAll_exact l (put st.1 n d, if n ∈ st.2 then st.2 else st.2 ++ [n]) h.2 k
    rw [restoreAll, h1, h2]
    constructor
    · rw [look_put, look_cons]
      by_cases hk : n = k
      · subst hk
        rw [look_none l n h.1]
        simp
      · have : ¬ k = n := fun h => hk h.symm
        simp [hk, this]
    · dsimp only
      by_cases hn : n ∈ st.2
      · rw [if_pos hn]
        simp only [List.map_cons, List.mem_cons]
        constructor
        · rintro (hh | hh)
          · exact Or.inl hh
          · exact Or.inr (Or.inr hh)
        · rintro (hh | rfl | hh)
          · exact Or.inl hh
          · exact Or.inl hn
          · exact Or.inr hh
      · rw [if_neg hn]
        simp only [List.map_cons, List.mem_cons, List.mem_append, List.not_mem_nil, or_false]
        tauto

/-- One section after restoring: each setting with a default value has it and is marked, everything else is as before. -/
structure Restored (t t' : Sec V) : Prop where
  value : ∀ k d, (k, d) ∈ t.dvs → look t'.vals k = some d ∧ k ∈ t'.defaults
  other : ∀ k, k ∉ t.dvs.map (·.1) → look t'.vals k = look t.vals k ∧ (k ∈ t'.defaults ↔ k ∈ t.defaults)
  keep : t'.dvs = t.dvs ∧ t'.subs.names = t.subs.names

theorem look_of_mem (l : List (String × V)) (k : String) (v : V) (hn : (l.map (·.1)).Nodup) (h : (k, v) ∈ l) : look l k = some v := by
  induction l with
  | nil => simp at h
  | cons a l ih =>
    rw [List.map_cons, List.nodup_cons] at hn
    rw [look_cons]
    rcases List.mem_cons.1 h with rfl | h
    · simp
    · rw [if_neg (by rintro rfl; exact hn.1 (List.mem_map.2 ⟨_, h, rfl⟩)), ih hn.2 h]

mutual
theorem restore_spec : ∀ (s s' : Sec V), restore s = some s' → (∀ path t, At s path t → (t.dvs.map (·.1)).Nodup) →
    (∀ path t, At s path t → ∃ t', At s' path t' ∧ Restored t t') ∧ (∀ path t', At s' path t' → ∃ t, At s path t ∧ Restored t t')
  | .mk vals defs dvs subs, s', h, hn => by
    rw [restore] at h
    split_ifs at h with hany
    cases hr : restoreSubs subs with
    | none => rw [hr] at h; simp at h
    | some subs' =>
      rw [hr] at h
      simp only [Option.some.injEq] at h
      subst h
      obtain ⟨a1, a2, a3⟩ := restoreSubs_spec subs subs' hr (fun k s hs path t ht => hn (k :: path) t (.down _ _ _ _ _ _ _ _ hs ht))
      have hnod := hn [] _ (.here _)
      have hR : Restored (.mk vals defs dvs subs) (.mk (restoreAll dvs (vals, defs)).1 (restoreAll dvs (vals, defs)).2 dvs subs') := by
        refine ⟨?_, ?_, rfl, a3⟩
        · intro k d hk
          obtain ⟨b1, b2⟩ := restoreAll_exact dvs (vals, defs) hnod k
          exact ⟨by rw [Sec.vals, b1, look_of_mem dvs k d hnod hk]; rfl, b2.2 (Or.inr (List.mem_map.2 ⟨_, hk, rfl⟩))⟩
        · intro k hk
          obtain ⟨b1, b2⟩ := restoreAll_exact dvs (vals, defs) hnod k
          refine ⟨by rw [Sec.vals, b1, look_none dvs k hk]; rfl, b2.trans ⟨?_, Or.inl⟩⟩
          rintro (hh | hh)
          · exact hh
          · exact absurd hh hk
      constructor
      · intro path t ht
        cases ht with
        | here => exact ⟨_, .here _, hR⟩
        | down _ _ _ _ k path s t hs ht =>
          obtain ⟨s', hs', b1, _⟩ := a1 k s hs
          obtain ⟨t', ht', b2⟩ := b1 path t ht
          exact ⟨t', .down _ _ _ _ _ _ _ _ hs' ht', b2⟩
      · intro path t' ht
        cases ht with
        | here => exact ⟨_, .here _, hR⟩
        | down _ _ _ _ k path s' t' hs ht =>
          obtain ⟨s, hs', _, b1⟩ := a2 k s' hs
          obtain ⟨t, ht', b2⟩ := b1 path t' ht
          exact ⟨t, .down _ _ _ _ _ _ _ _ hs' ht', b2⟩
theorem restoreSubs_spec : ∀ (l l' : Secs V), restoreSubs l = some l' → (∀ k s, In l k s → ∀ path t, At s path t → (t.dvs.map (·.1)).Nodup) →
    (∀ k s, In l k s → ∃ s', In l' k s' ∧ (∀ path t, At s path t → ∃ t', At s' path t' ∧ Restored t t') ∧ (∀ path t', At s' path t' → ∃ t, At s path t ∧ Restored t t')) ∧
    (∀ k s', In l' k s' → ∃ s, In l k s ∧ (∀ path t, At s path t → ∃ t', At s' path t' ∧ Restored t t') ∧ (∀ path t', At s' path t' → ∃ t, At s path t ∧ Restored t t')) ∧
    l'.names = l.names
  | .nil, l', h, _ => by
    simp only [restoreSubs, Option.some.injEq] at h
    subst h
    exact ⟨fun _ _ h => h.elim, fun _ _ h => h.elim, rfl⟩
  | .cons n s r, l', h, hn => by
    rw [restoreSubs] at h
    cases h1 : restore s with
    | none => rw [h1] at h; simp at h
    | some s1 =>
      cases h2 : restoreSubs r with
      | none => rw [h1, h2] at h; simp at h
      | some r1 =>
        rw [h1, h2] at h
        simp only [Option.some.injEq] at h
        subst h
        have b := restore_spec s s1 h1 (hn n s (Or.inl ⟨rfl, rfl⟩))
        obtain ⟨c1, c2, c3⟩ := restoreSubs_spec r r1 h2 (fun k s hs => hn k s (Or.inr hs))
        refine ⟨?_, ?_, by rw [Secs.names, Secs.names, c3]⟩
        · rintro k t (⟨rfl, rfl⟩ | hh)
          · exact ⟨s1, Or.inl ⟨rfl, rfl⟩, b⟩
          · obtain ⟨s', d1, d2⟩ := c1 k t hh
            exact ⟨s', Or.inr d1, d2⟩
        · rintro k t (⟨rfl, rfl⟩ | hh)
          · exact ⟨s, Or.inl ⟨rfl, rfl⟩, b⟩
          · obtain ⟨s', d1, d2⟩ := c2 k t hh
            exact ⟨s', Or.inr d1, d2⟩
end

/-- C185.  `restore_defaults` gives in every section at any depth each setting that has a default value this value and the mark, and changes nothing else; no section appears
or disappears. -/
theorem restore_exact (s s' : Sec V) (h : restore s = some s') (hn : ∀ path t, At s path t → (t.dvs.map (·.1)).Nodup) (path : List String) :
    (∀ t, At s path t → ∃ t', At s' path t' ∧ Restored t t') ∧ (∀ t', At s' path t' → ∃ t, At s path t ∧ Restored t t') :=
  ⟨(restore_spec s s' h hn).1 path, (restore_spec s s' h hn).2 path⟩

mutual
theorem restore_none : ∀ s : Sec V, restore s = none ↔ ∃ path t, At s path t ∧ ∃ k ∈ t.dvs.map (·.1), k ∈ t.subs.names
  | .mk vals defs dvs subs => by
    have ha : (dvs.any (fun p => decide (p.1 ∈ subs.names)) = true) ↔ ∃ k ∈ dvs.map (·.1), k ∈ subs.names := by simp
    rw [restore]
    split_ifs with h
    · exact ⟨fun _ => ⟨[], _, .here _, ha.1 h⟩, fun _ => rfl⟩
    · have hs := restoreSubs_none subs
      cases hr : restoreSubs subs with
      | none =>
        obtain ⟨k, s, h1, path, t, h2, h3⟩ := hs.1 hr
        exact ⟨fun _ => ⟨k :: path, t, .down _ _ _ _ _ _ _ _ h1 h2, h3⟩, fun _ => rfl⟩
      | some l =>
        simp only [reduceCtorEq, false_iff]
        rintro ⟨path, t, h1, h2⟩
        cases h1 with
        | here => exact h (ha.2 h2)
        | down _ _ _ _ k path s t h3 h4 =>
          have := hs.2 ⟨k, s, h3, path, t, h4, h2⟩
          rw [hr] at this; simp at this
theorem restoreSubs_none : ∀ l : Secs V, restoreSubs l = none ↔ ∃ k s, In l k s ∧ ∃ path t, At s path t ∧ ∃ k ∈ t.dvs.map (·.1), k ∈ t.subs.names
  | .nil => by simp [restoreSubs, In]
  | .cons n s r => by
    have h1 := restore_none s
    have h2 := restoreSubs_none r
    rw [restoreSubs]
    constructor
    · intro h
      cases e1 : restore s with
      | none => exact ⟨n, s, Or.inl ⟨rfl, rfl⟩, h1.1 e1⟩
      | some s' =>
        cases e2 : restoreSubs r with
        | none =>
          obtain ⟨k, t, h3, h4⟩ := h2.1 e2
          exact ⟨k, t, Or.inr h3, h4⟩
        | some r' => rw [e1, e2] at h; simp at h
    · rintro ⟨k, t, ⟨rfl, rfl⟩ | h3, h4⟩
      · rw [h1.2 h4]
      · rw [h2.2 ⟨k, t, h3, h4⟩]
        cases restore s <;> rfl
end

/-- C185.  It fails exactly if somewhere a setting with a default value is now a section. -/
theorem restore_raises (s : Sec V) : restore s = none ↔ ∃ path t, At s path t ∧ ∃ k ∈ t.dvs.map (·.1), k ∈ t.subs.names := restore_none s

theorem example_access : asBool (some (.str "oFF")) = .ok false ∧ asBool (some (.str "maybe")) = .error .value ∧
    restore (.mk [("n", 3), ("z", 1)] [] [("n", 7)] (.cons "a" (.mk [] ["x"] [("x", 1), ("y", 2)] .nil) .nil)) =
      some (.mk [("n", 7), ("z", 1)] ["n"] [("n", 7)] (.cons "a" (.mk [("x", 1), ("y", 2)] ["x", "y"] [("x", 1), ("y", 2)] .nil) .nil)) := ⟨by decide, by decide, rfl⟩

end Verif.ConfigAccess
