import Verif.PipelineProps
import Mathlib.Tactic.SplitIfs
import Mathlib.Tactic.Tauto

/-!
# C03, C04: editing the pipeline at any stage number
-/

namespace Verif.Pipeline

variable {S D M : Type}

/-- Where Python's `insert(k, ...)` puts something into a list of `n` things. -/
def stagePos (n : Nat) (k : Int) : Nat := if k < 0 then (n + k).toNat else min k.toNat n

theorem insert_getElem? {α : Type} (l : List α) (k : Int) (x : α) (j : Nat) :
    (Py.insert l k x)[j]? =
      if j < stagePos l.length k then l[j]? else if j = stagePos l.length k then some x else l[j - 1]? := by
  have hp : Py.insertPos l.length k = stagePos l.length k := by
    unfold Py.insertPos stagePos
    by_cases h : k < 0
    · rw [if_neg (by omega), if_pos h]; congr 1; omega
    · rw [if_pos (by omega), if_neg h]
  have hle : stagePos l.length k ≤ l.length := by
    unfold stagePos
    split_ifs <;> omega
  generalize stagePos l.length k = a at *
  simp only [Py.insert, hp]
  by_cases h1 : j < a
  · simp only [h1, if_true]
    rw [List.getElem?_append_left (by simp; omega)]
    simp [h1]
  · rw [List.getElem?_append_right (by simp; omega)]
    have h2 : (l.take a).length = a := by simp; omega
    simp only [h1, if_false, h2]
    by_cases h3 : j = a
    · simp [h3]
    · have : j - a = (j - 1 - a) + 1 := by omega
      rw [this]
      simp only [h3, if_false, List.getElem?_cons_succ, List.getElem?_drop]
      congr 1
      omega

/-- Every old stage from the place `a` of the new one on keeps its data and moves on by one, and the new
stage has none. -/
def DataMovesAlong (p p' : Pipe S D M) (a : Nat) : Prop :=
  ∀ j, waiting p' j = if j < a then waiting p j else if j = a then [] else waiting p (j - 1)

/-- **C03** for every stage number `k` (negative ones count from the end): the new element goes where
Python's `insert` puts it, the others keep their order, and the data move along with their stages exactly
if `k` is one of `0 .. n` or at most `-n-1`, or nothing waits at that place; otherwise the new element is
given the data that wait there. -/
theorem addElement_exact (p : Pipe S D M) (e : Elem S) (k : Int)
    (hs : p.queues.length = p.elems.length + 1) (hc : p.cycles.length = p.elems.length) :
    let a := stagePos p.elems.length k
    (∀ j, (addElement p k e).elems[j]? =
      if j < a then p.elems[j]? else if j = a then some e else p.elems[j - 1]?) ∧
    (∀ j, (addElement p k e).cycles[j]? =
      if j < a then p.cycles[j]? else if j = a then some 0 else p.cycles[j - 1]?) ∧
    (DataMovesAlong p (addElement p k e) a ↔
      (0 ≤ k ∧ k ≤ p.elems.length) ∨ k < -(p.elems.length : Int) ∨ waiting p a = []) ∧
    (¬ DataMovesAlong p (addElement p k e) a → waiting (addElement p k e) a = waiting p a) := by
  intro a
  have hw : ∀ j, waiting (addElement p k e) j =
      if j < stagePos (p.elems.length + 1) k then waiting p j
      else if j = stagePos (p.elems.length + 1) k then [] else waiting p (j - 1) := by
    intro j
    unfold waiting addElement
    rw [insert_getElem? p.queues k [] j, hs]
    split_ifs <;> rfl
  refine ⟨fun j => insert_getElem? p.elems k e j, fun j => ?_, ?_⟩
  · have := insert_getElem? p.cycles k 0 j
    rw [hc] at this
    exact this
  · by_cases hin : (0 ≤ k ∧ k ≤ p.elems.length) ∨ k < -(p.elems.length : Int)
    · have hab : stagePos (p.elems.length + 1) k = a := by
        show _ = stagePos p.elems.length k
        unfold stagePos
        split_ifs <;> omega
      have hd : DataMovesAlong p (addElement p k e) a := by
        intro j
        rw [hw j, hab]
      refine ⟨⟨fun _ => by tauto, fun _ => hd⟩, fun h => absurd hd h⟩
    · have hab : stagePos (p.elems.length + 1) k = a + 1 := by
        show _ = stagePos p.elems.length k + 1
        unfold stagePos
        split_ifs <;> omega
      have hwa : waiting (addElement p k e) a = waiting p a := by
        rw [hw a, hab, if_pos (by omega)]
      refine ⟨⟨fun h => ?_, fun h => ?_⟩, fun _ => hwa⟩
      · right; right
        have := h a
        rw [hwa, if_neg (by omega), if_pos rfl] at this
        exact this
      · have he : waiting p a = [] := by tauto
        intro j
        rw [hw j, hab]
        by_cases h1 : j < a
        · rw [if_pos (by omega), if_pos h1]
        · rw [if_neg h1]
          by_cases h2 : j = a
          · rw [if_pos (by omega), if_pos h2, h2, he]
          · rw [if_neg (by omega), if_neg h2]
            by_cases h3 : j = a + 1
            · rw [if_pos h3, h3]; simpa using he.symm
            · rw [if_neg h3]

example : ¬ DataMovesAlong (⟨[⟨1, 0, 0⟩], [0], [[.data 7], []]⟩ : Pipe Nat Nat Unit)
    (addElement ⟨[⟨1, 0, 0⟩], [0], [[.data 7], []]⟩ (-1) ⟨2, 0, 0⟩) 0 := by
  intro h
  have := h 0
  revert this
  decide

/-- **C04** for every stage number `k`: outside `-n .. n-1` nothing happens and IndexError is raised.
Otherwise exactly the element `a` Python's `pop` takes is removed and returned with its counter, the queues
before it are unchanged and those behind the next one move up.  For `0 ≤ k` its data join the next stage's queue behind
what waits there (`keepdata`) or are dropped; for `k < 0` the roles of the two queues are exchanged: the
next stage's data join, or are dropped, and those of the removed stage stay. -/
theorem removeElement_exact (p : Pipe S D M) (k : Int) (keepdata : Bool)
    (hs : p.queues.length = p.elems.length + 1) (hc : p.cycles.length = p.elems.length) :
    ((k < -(p.elems.length : Int) ∨ (p.elems.length : Int) ≤ k) →
      removeElement p k keepdata = (p, .error .indexError)) ∧
    ∀ a : Nat, ∀ ha : a < p.elems.length, ((k = a) ∨ (k = (a : Int) - p.elems.length)) →
      (removeElement p k keepdata).2 = .ok p.elems[a] ∧
      (removeElement p k keepdata).1.elems = p.elems.eraseIdx a ∧
      (removeElement p k keepdata).1.cycles = p.cycles.eraseIdx a ∧
      ∀ j, waiting (removeElement p k keepdata).1 j =
        if j < a then waiting p j
        else if j = a then
          (if 0 ≤ k then waiting p (a + 1) ++ (if keepdata then waiting p a else [])
           else waiting p a ++ (if keepdata then waiting p (a + 1) else []))
        else waiting p (j + 1) := by
  constructor
  · intro h
    rcases removeElement_eq p k keepdata ⟨hc, hs⟩ with ⟨_, h0⟩ | ⟨j, i, hj, hi, e1, _, _⟩
    · exact h0
    · exfalso
      unfold Py.idx at e1
      split_ifs at e1 <;> omega
  · intro a ha hk
    by_cases h0 : 0 ≤ k
    · have hka : k = a := by omega
      subst hka
      obtain ⟨h1, h2, h3, h4⟩ := removeElement_keeps_order p a keepdata hs hc ha
      refine ⟨h1, h2, h3, ?_⟩
      intro j
      rw [h4 j]
      simp
    · have hka : k = (a : Int) - p.elems.length := by omega
      rcases removeElement_eq p k keepdata ⟨hc, hs⟩ with ⟨h, _⟩ | ⟨j, i, hj, hi, e1, e2, e⟩
      · exfalso
        unfold Py.idx at h
        split_ifs at h <;> omega
      · have hja : j = a := by
          unfold Py.idx at e1
          rw [if_neg h0] at e1
          split_ifs at e1
          simp only [Option.some.injEq] at e1
          omega
        have hia : i = a + 1 := by
          unfold Py.idx at e2
          rw [if_neg h0] at e2
          split_ifs at e2
          simp only [Option.some.injEq] at e2
          omega
        subst hja hia
        rw [e]
        refine ⟨rfl, rfl, rfl, ?_⟩
        intro m
        rw [if_neg h0]
        have hjq : j < p.queues.length := by omega
        unfold waiting
        cases keepdata with
        | false =>
          simp only [Bool.false_eq_true, if_false, List.append_nil, List.getElem?_eraseIdx]
          by_cases h1 : m < j
          · simp [h1, show m < j + 1 by omega]
          · by_cases h2 : m = j
            · simp [h2]
            · simp [h1, h2, show ¬ m < j + 1 by omega]
        | true =>
          simp only [if_true, List.getElem?_modify, List.getElem?_eraseIdx]
          by_cases h1 : m < j
          · simp [h1, show m < j + 1 by omega, show ¬ j = m by omega]
          · by_cases h2 : m = j
            · subst h2
              simp [List.getElem?_eq_getElem hjq, List.getElem?_eq_getElem hi]
            · simp [h1, h2, show ¬ m < j + 1 by omega, show ¬ j = m by omega]

example : waiting (removeElement (⟨[⟨1, 0, 0⟩, ⟨2, 0, 0⟩], [0, 3],
    [[.data 4, .data 3], [.data 2, .data 1], [.data 0]]⟩ : Pipe Nat Nat Unit) (-1) true).1 1
    = [.data 1, .data 2, .data 0] := by decide

end Verif.Pipeline
