import Verif.SymMap
import Mathlib.Tactic.Common

/-!
# Properties of `SymmetricMapping` (C22)
-/

namespace Verif.SymMap

/-- The claim of C22: the two directions are inverse to each other. -/
def Symmetric (st : State) : Prop := ∀ k v, st.fwd k = some v ↔ st.back v = some k

/-- Assignments C22 is proved for: no None, and a key that already has a value is only given one that is rejected
because it is taken. (To change a value, delete the key first.) -/
def Op.Safe (st : State) : Op → Prop
  | .set true k v => k ≠ none ∧ v ≠ none ∧ (st.fwd k = none ∨ st.back v ≠ none)
  | .set false k v => k ≠ none ∧ v ≠ none ∧ (st.back k = none ∨ st.fwd v ≠ none)
  | _ => True

/-- A history of safe calls. -/
def SafeRun (st : State) : List Op → Prop
  | [] => True
  | op :: ops => op.Safe st ∧ SafeRun (step st op).1 ops

/-- None does not occur. -/
def NoNone (a : Dict) : Prop := a none = none ∧ ∀ k, a k ≠ some none

/-- Invariant for one orientation. -/
structure Inv (a b : Dict) : Prop where
  sym : ∀ k v, a k = some v ↔ b v = some k
  na : NoNone a
  nb : NoNone b

theorem Inv.swap {a b : Dict} (h : Inv a b) : Inv b a := ⟨fun k v => (h.sym v k).symm, h.nb, h.na⟩

theorem present_iff {a : Dict} (h : NoNone a) (k : Key) : present a k = true ↔ a k ≠ none := by
  unfold present
  cases hk : a k with
  | none => simp
  | some v => cases v with
    | none => exact absurd hk (h.2 k)
    | some x => simp

/-- A rejected assignment restores everything. -/
theorem setBoth_error {a b : Dict} (ha : NoNone a) {k v : Key} {e : Exc} (h : (setBoth a b k v).2 = .error e) :
    (setBoth a b k v).1 = (a, b) := by
  unfold setBoth at h ⊢
  dsimp only at h ⊢
  split
  · have : (if present a k = true then (match a k with | some old => set (set a k v) k old | none => set a k v) else del (set a k v) k)
        = a := by
      funext j
      split
      · rename_i hp
        cases hk : a k with
        | none => rw [present_iff ha] at hp; exact absurd hk hp
        | some old =>
          simp only [set]
          by_cases hj : j = k
          · simp [hj, hk]
          · simp [hj]
      · rename_i hp
        have hk : a k = none := by
          by_contra hk; exact hp ((present_iff ha k).mpr hk)
        simp only [del, set]
        by_cases hj : j = k
        · simp [hj, hk]
        · simp [hj]
    exact Prod.ext this rfl
  · rename_i hp; rw [if_neg hp] at h; simp at h

theorem inv_set {a b : Dict} (hi : Inv a b) {k v : Key} (hk : k ≠ none) (hv : v ≠ none) (hs : a k = none ∨ b v ≠ none) :
    Inv (setBoth a b k v).1.1 (setBoth a b k v).1.2 := by
  by_cases hp : present b v = true
  · have : (setBoth a b k v).2 = .error .keyError := by simp [setBoth, hp]
    rw [setBoth_error hi.na this]; exact hi
  · have hb : b v = none := by by_contra h; exact hp ((present_iff hi.nb v).mpr h)
    have ha : a k = none := by
      rcases hs with h | h
      · exact h
      · exact absurd hb h
    have : (setBoth a b k v).1 = (set a k v, set b v k) := by simp [setBoth, hp]
    rw [this]
    refine ⟨?_, ?_, ?_⟩
    · intro k' v'
      simp only [set]
      by_cases h1 : k' = k
      · subst h1
        by_cases h2 : v' = v
        · subst h2; simp
        · simp only [if_true, Option.some.injEq, h2, if_false]
          constructor
          · intro h; exact absurd h.symm h2
          · intro h
            rw [← hi.sym, ha] at h
            simp at h
      · by_cases h2 : v' = v
        · subst h2
          simp only [h1, if_false, if_true, Option.some.injEq]
          constructor
          · intro h
            rw [hi.sym, hb] at h
            simp at h
          · intro h; exact absurd h.symm h1
        · simp only [h1, h2, if_false]; exact hi.sym k' v'
    · refine ⟨?_, ?_⟩
      · simp only [set]; rw [if_neg (fun h => hk h.symm)]; exact hi.na.1
      · intro j; simp only [set]; split
        · simpa using hv
        · exact hi.na.2 j
    · refine ⟨?_, ?_⟩
      · simp only [set]; rw [if_neg (fun h => hv h.symm)]; exact hi.nb.1
      · intro j; simp only [set]; split
        · simpa using hk
        · exact hi.nb.2 j

theorem inv_del {a b : Dict} (hi : Inv a b) (k : Key) : Inv (delBoth a b k).1.1 (delBoth a b k).1.2 := by
  unfold delBoth
  cases hk : a k with
  | none => exact hi
  | some v =>
    have hb : b v = some k := (hi.sym k v).mp hk
    simp only [hb]
    refine ⟨?_, ?_, ?_⟩
    · intro k' v'
      simp only [del]
      by_cases h1 : k' = k
      · subst h1
        simp only [if_true]
        constructor
        · intro h; simp at h
        · intro h
          split at h
          · simp at h
          · rename_i h2
            rw [← hi.sym, hk] at h
            simp only [Option.some.injEq] at h
            exact absurd h.symm h2
      · by_cases h2 : v' = v
        · subst h2
          simp only [h1, if_false, if_true]
          constructor
          · intro h
            rw [hi.sym, hb] at h
            simp only [Option.some.injEq] at h
            exact absurd h.symm h1
          · intro h; simp at h
        · simp only [h1, h2, if_false]; exact hi.sym k' v'
    · exact ⟨by simp only [del]; split <;> simp [hi.na.1], by intro j; simp only [del]; split; simp; exact hi.na.2 j⟩
    · exact ⟨by simp only [del]; split <;> simp [hi.nb.1], by intro j; simp only [del]; split; simp; exact hi.nb.2 j⟩

theorem inv_step {st : State} (hi : Inv st.fwd st.back) (op : Op) (hs : op.Safe st) :
    Inv (step st op).1.fwd (step st op).1.back := by
  cases op with
  | set f k v =>
    cases f with
    | true => exact inv_set hi hs.1 hs.2.1 hs.2.2
    | false => exact (inv_set hi.swap hs.1 hs.2.1 hs.2.2).swap
  | del f k =>
    cases f with
    | true => exact inv_del hi k
    | false => exact (inv_del hi.swap k).swap
  | pop f k => exact hi

theorem inv_run (ops : List Op) : ∀ st : State, Inv st.fwd st.back → SafeRun st ops → Inv (run st ops).fwd (run st ops).back := by
  induction ops with
  | nil => intro st h _; exact h
  | cons op ops ih => intro st h hs; exact ih _ (inv_step h op hs.1) hs.2

theorem inv_init : Inv init.fwd init.back :=
  ⟨by intro k v; simp [init], ⟨rfl, by intro k; simp [init]⟩, ⟨rfl, by intro k; simp [init]⟩⟩

/-- **C22**: after any history of assignments to fresh keys (through either direction), rejected assignments and deletions,
forward and backward are inverse.
Missing: giving a present key a new value, and None keys or values, for which it is false (below). -/
theorem symmetric_on_domain (ops : List Op) (hs : SafeRun init ops) : Symmetric (run init ops) :=
  (inv_run ops init inv_init hs).sym

/-- A successful assignment stores the pair and nothing else; a rejected one changes nothing. -/
theorem set_effect (ops : List Op) (hs : SafeRun init ops) (k v : Key) (hk : k ≠ none) (hv : v ≠ none)
    (hfresh : (run init ops).fwd k = none ∨ (run init ops).back v ≠ none) :
    (step (run init ops) (.set true k v)).2 = .ok () ∧ (run init ops).back v = none ∧
      (∀ j, (step (run init ops) (.set true k v)).1.fwd j = if j = k then some v else (run init ops).fwd j) ∨
    (step (run init ops) (.set true k v)).2 = .error .keyError ∧ (run init ops).back v ≠ none ∧
      (step (run init ops) (.set true k v)).1 = run init ops := by
  have hi := inv_run ops init inv_init hs
  by_cases hp : present (run init ops).back v = true
  · right
    have he : (setBoth (run init ops).fwd (run init ops).back k v).2 = .error .keyError := by simp [setBoth, hp]
    refine ⟨he, (present_iff hi.nb v).mp hp, ?_⟩
    simp only [step, setBoth_error hi.na he]
  · left
    have hb : (run init ops).back v = none := by by_contra h; exact hp ((present_iff hi.nb v).mpr h)
    refine ⟨by simp [step, setBoth, hp], hb, ?_⟩
    intro j
    simp [step, setBoth, hp, set]

/-- Deletion removes exactly the pair, from both directions. -/
theorem del_effect (ops : List Op) (hs : SafeRun init ops) (k v : Key) (h : (run init ops).fwd k = some v) :
    (step (run init ops) (.del true k)).2 = .ok () ∧
    (∀ j, (step (run init ops) (.del true k)).1.fwd j = if j = k then none else (run init ops).fwd j) ∧
    (∀ j, (step (run init ops) (.del true k)).1.back j = if j = v then none else (run init ops).back j) := by
  have hi := inv_run ops init inv_init hs
  have hb := (hi.sym k v).mp h
  simp [step, delBoth, h, hb, del]

/-- C22 fails when a key gets a new value: the old value still maps back to it. -/
theorem reassign_leaves_stale_back :
    (run init [.set true (some 1) (some 10), .set true (some 1) (some 20)]).fwd (some 1) = some (some 20) ∧
    (run init [.set true (some 1) (some 10), .set true (some 1) (some 20)]).back (some 10) = some (some 1) := by decide

/-- C22 fails for the key None: two keys end up with the same value. -/
theorem none_key_duplicates :
    (run init [.set true none (some 5), .set true (some 7) (some 5)]).fwd none = some (some 5) ∧
    (run init [.set true none (some 5), .set true (some 7) (some 5)]).fwd (some 7) = some (some 5) := by decide

/-- A safe history: assignments from both sides, a rejected duplicate, a deletion, a fresh assignment. -/
example : SafeRun init [.set true (some 1) (some 10), .set false (some 20) (some 2), .set true (some 3) (some 10),
    .del false (some 10), .set true (some 1) (some 30)] := by
  refine ⟨⟨by decide, by decide, by decide⟩, ⟨by decide, by decide, by decide⟩, ⟨by decide, by decide, by decide⟩,
    trivial, ⟨by decide, by decide, by decide⟩, trivial⟩

end Verif.SymMap
