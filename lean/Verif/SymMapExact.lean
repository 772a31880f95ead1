import Verif.SymMapProps
import Mathlib.Tactic.Tauto

/-!
# C22: exactly which assignments keep the two directions inverse
-/

namespace Verif.SymMap

/-- An assignment `a[k] = v` that is right: the key and the value are both new; or the value already belongs to a
key other than None (the call is refused) and `k` has no value None; or the pair (None, v) is stored again. -/
def GoodSet (a b : Dict) (k v : Key) : Prop :=
  (a k = none ∧ b v = none) ∨ (present b v = true ∧ a k ≠ some none) ∨ (k = none ∧ b v = some none)

/-- Calls that keep C22: deletions and `pop` always, assignments that are `GoodSet`. -/
def Op.Good (st : State) : Op → Prop
  | .set true k v => GoodSet st.fwd st.back k v
  | .set false k v => GoodSet st.back st.fwd k v
  | _ => True

theorem present_eq (a : Dict) (k : Key) : present a k = true ↔ ∃ x, a k = some (some x) := by
  unfold present
  rcases h : a k with _ | (_ | x) <;> simp

theorem setBoth_sym_iff {a b : Dict} (hs : ∀ k v, a k = some v ↔ b v = some k) (k v : Key) :
    (∀ k' v', (setBoth a b k v).1.1 k' = some v' ↔ (setBoth a b k v).1.2 v' = some k') ↔ GoodSet a b k v := by
  by_cases hp : present b v = true
  · obtain ⟨x, hx⟩ := (present_eq b v).mp hp
    by_cases hk : a k = some none
    · have e : (setBoth a b k v).1 = (del (set a k v) k, b) := by
        have : present a k = false := by simp [present, hk]
        simp [setBoth, hp, this]
      rw [e]
      constructor
      · intro h
        have h1 := (h k none).mpr ((hs k none).mp hk)
        simp [del] at h1
      · rintro (⟨h, _⟩ | ⟨_, h⟩ | ⟨_, h⟩)
        · rw [hk] at h; cases h
        · exact absurd hk h
        · rw [hx] at h; cases h
    · have e : (setBoth a b k v).1 = (a, b) := by
        have : ∀ a', a' = a → (setBoth a b k v).1 = (a', b) → (setBoth a b k v).1 = (a, b) := by
          intro a' h1 h2; rw [h2, h1]
        refine this _ ?_ (by simp [setBoth, hp]; rfl)
        funext j
        rcases hak : a k with _ | (_ | y)
        · by_cases hj : j = k <;> simp [present, hak, del, set, hj]
        · exact absurd hak hk
        · by_cases hj : j = k <;> simp [present, hak, set, hj]
      rw [e]
      exact ⟨fun _ => Or.inr (Or.inl ⟨hp, hk⟩), fun _ => hs⟩
  · have e : (setBoth a b k v).1 = (set a k v, set b v k) := by simp [setBoth, hp]
    rw [e]
    constructor
    · intro h
      rcases hbv : b v with _ | (_ | x)
      · left
        refine ⟨?_, hbv⟩
        rcases hak : a k with _ | v0
        · rfl
        · exfalso
          have h0 : v0 ≠ v := by rintro rfl; rw [hs, hbv] at hak; cases hak
          have h1 := (h k v0).mpr (by simp only [set]; rw [if_neg h0]; exact (hs k v0).mp hak)
          simp only [set, if_true, Option.some.injEq] at h1
          exact h0 h1.symm
      · right; right
        refine ⟨?_, hbv⟩
        by_contra hk
        have h1 := (h none v).mp (by
          simp only [set]; rw [if_neg (fun h' => hk h'.symm)]; exact (hs none v).mpr hbv)
        simp only [set, if_true, Option.some.injEq] at h1
        exact hk h1
      · exact absurd ((present_eq b v).mpr ⟨x, hbv⟩) hp
    · rintro (⟨ha, hb⟩ | ⟨h, _⟩ | ⟨rfl, hb⟩)
      · intro k' v'
        simp only [set]
        by_cases h1 : k' = k <;> by_cases h2 : v' = v
        · simp [h1, h2]
        · rw [if_pos h1, if_neg h2]
          constructor
          · intro h; exact absurd (Option.some.inj h).symm h2
          · intro h; rw [← hs, h1, ha] at h; cases h
        · rw [if_neg h1, if_pos h2]
          constructor
          · intro h; rw [hs, h2, hb] at h; cases h
          · intro h; exact absurd (Option.some.inj h).symm h1
        · rw [if_neg h1, if_neg h2]; exact hs k' v'
      · exact absurd h hp
      · have ha : a none = some v := (hs none v).mpr hb
        have e1 : set a none v = a := by funext j; by_cases hj : j = none <;> simp [set, hj, ha]
        have e2 : set b v none = b := by funext j; by_cases hj : j = v <;> simp [set, hj, hb]
        rw [e1, e2]; exact hs

theorem delBoth_sym {a b : Dict} (hs : ∀ k v, a k = some v ↔ b v = some k) (k : Key) :
    ∀ k' v', (delBoth a b k).1.1 k' = some v' ↔ (delBoth a b k).1.2 v' = some k' := by
  unfold delBoth
  rcases hk : a k with _ | v
  · exact hs
  · have hb : b v = some k := (hs k v).mp hk
    simp only [hb]
    intro k' v'
    simp only [del]
    by_cases h1 : k' = k <;> by_cases h2 : v' = v
    · simp [h1, h2]
    · rw [if_pos h1, if_neg h2]
      constructor
      · intro h; cases h
      · intro h; rw [← hs, h1, hk] at h; exact absurd (Option.some.inj h).symm h2
    · rw [if_neg h1, if_pos h2]
      constructor
      · intro h; rw [hs, h2, hb] at h; exact absurd (Option.some.inj h).symm h1
      · intro h; cases h
    · rw [if_neg h1, if_neg h2]; exact hs k' v'

/-- **C22**, one call: on a mapping whose directions are inverse, a call leaves them inverse iff it is `Good`. -/
theorem symmetric_step_iff (st : State) (hs : Symmetric st) (op : Op) : Symmetric (step st op).1 ↔ op.Good st := by
  have hs' : ∀ k v, st.back k = some v ↔ st.fwd v = some k := fun k v => (hs v k).symm
  cases op with
  | set f k v =>
    cases f with
    | true => exact setBoth_sym_iff hs k v
    | false =>
      rw [show (Op.set false k v).Good st = GoodSet st.back st.fwd k v from rfl, ← setBoth_sym_iff hs' k v]
      exact ⟨fun h k' v' => (h v' k').symm, fun h k' v' => (h v' k').symm⟩
  | del f k =>
    refine ⟨fun _ => trivial, fun _ => ?_⟩
    cases f with
    | true => exact delBoth_sym hs k
    | false => exact fun k' v' => (delBoth_sym hs' k v' k').symm
  | pop f k => exact ⟨fun _ => trivial, fun _ => hs⟩

/-- Every call of the history is `Good` in the state in which it is made. -/
def GoodRun (st : State) : List Op → Prop
  | [] => True
  | op :: ops => op.Good st ∧ GoodRun (step st op).1 ops

/-- **C22**: the two directions are inverse all through a history of assignments and deletions (after each of its
calls) iff each call of it is `Good`. -/
theorem symmetric_throughout_iff (ops : List Op) :
    (∀ n, Symmetric (run init (ops.take n))) ↔ GoodRun init ops := by
  have key : ∀ (ops : List Op) (st : State), Symmetric st →
      ((∀ n, Symmetric (run st (ops.take n))) ↔ GoodRun st ops) := by
    intro ops
    induction ops with
    | nil => intro st h; simp [run, h, GoodRun]
    | cons op ops ih =>
      intro st h
      constructor
      · intro hn
        have h1 : Symmetric (step st op).1 := by have := hn 1; simpa [run] using this
        refine ⟨(symmetric_step_iff st h op).mp h1, (ih _ h1).mp fun n => ?_⟩
        have := hn (n + 1)
        simpa [run] using this
      · rintro ⟨hg, hr⟩ n
        cases n with
        | zero => simpa [run] using h
        | succ n =>
          have h1 := (symmetric_step_iff st h op).mpr hg
          have := (ih _ h1).mpr hr n
          simpa [run] using this
  exact key ops init (by intro k v; simp [init])

/-- A good history and a bad one (None twice as a value; a changed value). -/
example : GoodRun init [.set true none (some 5), .set true none (some 5), .set false (some 6) (some 1),
    .set true (some 2) (some 6), .del true none] := by
  refine ⟨Or.inl ⟨rfl, rfl⟩, Or.inr (Or.inr ⟨rfl, by decide⟩), Or.inl ⟨by decide, by decide⟩,
    Or.inr (Or.inl ⟨by decide, by decide⟩), trivial, trivial⟩
example : ¬ GoodRun init [.set true (some 1) (some 10), .set true (some 1) (some 20)] := by
  rintro ⟨_, h, _⟩
  rcases h with ⟨h, _⟩ | ⟨h, _⟩ | ⟨h, _⟩
  · revert h; decide
  · revert h; decide
  · revert h; decide

/-- **C22**, deletions from any state, also one in which the directions disagree: a missing key is refused and
nothing changes; a present key is gone afterwards in any case, its value is gone from the other direction, nothing
else is touched, and KeyError is raised exactly if the other direction did not have the value. -/
theorem del_exact (a b : Dict) (k : Key) :
    (a k = none → delBoth a b k = ((a, b), .error .keyError)) ∧
    (∀ v, a k = some v →
      (delBoth a b k).1.1 k = none ∧ (∀ j, j ≠ k → (delBoth a b k).1.1 j = a j) ∧
      (delBoth a b k).1.2 v = none ∧ (∀ j, j ≠ v → (delBoth a b k).1.2 j = b j) ∧
      ((delBoth a b k).2 = .error .keyError ↔ b v = none)) := by
  refine ⟨fun h => by simp [delBoth, h], fun v h => ?_⟩
  rcases hb : b v with _ | w
  · simp only [delBoth, h, hb, del]
    refine ⟨by simp, fun j hj => by simp [hj], trivial, fun _ _ => trivial, by simp⟩
  · simp only [delBoth, h, hb, del]
    refine ⟨by simp, fun j hj => by simp [hj], by simp, fun j hj => by simp [hj], by simp⟩

/-- The map 1 → 2, 1 → 3 taken back through the other direction: the second deletion meets a missing partner. -/
example : let st := run init [.set true (some 1) (some 2), .set true (some 1) (some 3), .del false (some 2)]
    (step st (.del false (some 3))).2 = .error .keyError ∧ st.back (some 3) = some (some 1) ∧
      (step st (.del false (some 3))).1.back (some 3) = none := by
  decide

end Verif.SymMap
