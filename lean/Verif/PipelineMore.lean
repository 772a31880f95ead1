import Verif.PipelineProps

/-!
# More about the pipeline: running up to a stage, clearing (C63, C64)
-/

namespace Verif.Pipeline

open Verif

variable {S D M : Type}

/-! ## C63 -/

/-- What element `e` makes of a queue item (messages left alone). -/
def Item.apply (f : D → D) : Item D M → Item D M
  | .data d => .data (f d)
  | .msg m => .msg m

/-- Draining one stage, exactly. -/
theorem drainLoop_exact {B : Beh S D M} {fn : Nat → D → D} (hB : Completes B fn) (rep : Repeat)
    (k : Nat) (acc : List StageRet) (e : Elem S) : ∀ (fuel : Nat) (p : Pipe S D M) (q r : List (Item D M)),
      (∀ x ∈ q, ∃ d, x = Item.data d) → p.elems[k]? = some e →
      p.queues[k]? = some q → p.queues[k + 1]? = some r → q.length + 1 < fuel →
      ∃ p', drainLoop B rep fuel p k acc = (p', .ok acc) ∧ p'.elems = p.elems ∧
        p'.queues[k]? = some [] ∧ p'.queues[k + 1]? = some (q.map (Item.apply (fn e.id)) ++ r) ∧
        ∀ j, j ≠ k → j ≠ k + 1 → p'.queues[j]? = p.queues[j]? := by
  intro fuel
  induction fuel with
  | zero => intro p q r _ _ _ _ h; simp at h
  | succ fuel ih =>
    intro p q r ha he hq hr hf
    unfold drainLoop
    rw [hq]
    by_cases h0 : q.length = 0
    · have : q = [] := List.length_eq_zero_iff.mp h0
      subst this
      exact ⟨p, by simp, rfl, hq, by simpa using hr, fun _ _ _ => rfl⟩
    · rcases List.eq_nil_or_concat q with h1 | ⟨q', x, h1⟩
      · simp [h1] at h0
      rw [List.concat_eq_append] at h1
      subst h1
      obtain ⟨d, rfl⟩ := ha x (by simp)
      have hps := processStage_completes hB p k _ d q' he hq
      simp only [Option.getD_some, h0, if_false, hps]
      have hfu : ∃ f', fuel = f' + 1 := ⟨fuel - 1, by simp at hf; omega⟩
      obtain ⟨f', rfl⟩ := hfu
      have hcyc : cyc (⟨p.elems, p.cycles.modify k (fun _ => 0),
          (p.queues.modify k (fun _ => q')).modify (k + 1)
            (Py.appendleft (.data (fn e.id d)))⟩ : Pipe S D M) k = 0 := by
        simp only [cyc, List.getElem?_modify]
        cases p.cycles[k]? <;> simp
      rw [retryLoop_zero _ _ _ _ _ _ hcyc]
      dsimp only
      have hqk : ((p.queues.modify k (fun _ => q')).modify (k + 1)
            (Py.appendleft (.data (fn e.id d))))[k]? = some q' := by
        rw [Py.getElem?_mod_ne _ _ _ _ (by omega), Py.getElem?_mod_eq, hq]; rfl
      have hrk : ((p.queues.modify k (fun _ => q')).modify (k + 1)
            (Py.appendleft (.data (fn e.id d))))[k + 1]? = some (.data (fn e.id d) :: r) := by
        rw [Py.getElem?_mod_eq, Py.getElem?_mod_ne _ _ _ _ (by omega), hr]; rfl
      obtain ⟨p', e1, e2, e3, e4, e5⟩ := ih ⟨p.elems, p.cycles.modify k (fun _ => 0),
          (p.queues.modify k (fun _ => q')).modify (k + 1)
            (Py.appendleft (.data (fn e.id d)))⟩ q' _ (fun x hx => ha x (by simp [hx])) he hqk hrk
        (by simp at hf; omega)
      refine ⟨p', e1, e2, e3, by simpa [Item.apply] using e4, ?_⟩
      intro j hj hj'
      rw [e5 j hj hj']
      simp only
      rw [Py.getElem?_mod_ne _ _ _ _ (by omega), Py.getElem?_mod_ne _ _ _ _ (by omega)]

theorem stagesLoop_append (B : Beh S D M) (rep : Repeat) (fuel : Nat) (b : List Nat) : ∀ (a : List Nat)
    (p : Pipe S D M) acc, stagesLoop B rep fuel p (a ++ b) acc =
      match stagesLoop B rep fuel p a acc with
      | (p', .error e) => (p', .error e)
      | (p', .ok r) => stagesLoop B rep fuel p' b r := by
  intro a
  induction a with
  | nil => intro p acc; simp [stagesLoop]
  | cons st a ih =>
    intro p acc
    simp only [List.cons_append, stagesLoop]
    rcases stageOnce B rep fuel p st with ⟨p', _ | r⟩
    · rfl
    · simp only [ih]

theorem reverse_apply_data (f : D → D) (q : List (Item D M)) (h : ∀ x ∈ q, ∃ d, x = Item.data d) :
    (q.map (Item.apply f)).reverse = ((dataOf q.reverse).map f).map .data := by
  rw [← List.map_reverse]
  have h' : ∀ x ∈ q.reverse, ∃ d, x = Item.data d := fun x hx => h x (by simpa using hx)
  generalize q.reverse = r at h'
  induction r with
  | nil => rfl
  | cons x r ih =>
    obtain ⟨d, rfl⟩ := h' x (by simp)
    simp [dataOf, Item.apply, ih (fun x hx => h' x (by simp [hx]))]

theorem pending_take_succ (fn : Nat → D → D) (i : Nat) : ∀ (is : List Nat) (qs : List (List (Item D M))),
    is.length = qs.length →
    pending fn (is ++ [i]) qs = (pending fn is qs).map (fn i) := by
  intro is qs
  induction qs generalizing is with
  | nil => intro h; cases is <;> simp_all [pending]
  | cons q qs ih =>
    intro h
    cases is with
    | nil => simp at h
    | cons a is =>
      have ht : ∀ (l : List Nat) (d : D), through fn (l ++ [i]) d = fn i (through fn l d) := by
        intro l
        induction l with
        | nil => intro d; rfl
        | cons b l ih => intro d; simp [through, ih]
      simp only [List.cons_append, pending, List.tail_cons, List.map_append, List.map_map]
      rw [ih is (by simpa using h)]
      congr 1
      apply List.map_congr_left
      intro d _
      simpa using ht (a :: is) d

/-- **C63**: `processToStage(k, repeat=True)` on elements that complete (any data waiting anywhere): the
queues of stages `0..k` are emptied; everything that waited there arrives in the input queue of stage `k+1`
(the output queue for the last stage) after what was already there, computed by all the stages up to `k` it
had not seen, oldest first; all later queues are untouched. -/
theorem processToStage_runs (B : Beh S D M) (fn : Nat → D → D) (hB : Completes B fn) (p : Pipe S D M)
    (hs : p.queues.length = p.elems.length + 1) (hdata : ∀ q ∈ p.queues, ∀ x ∈ q, ∃ d, x = Item.data d)
    (k : Nat) (hk : k < p.elems.length) (fuel : Nat) (hf : ((p.queues.map (·.length)).sum) + 1 < fuel) :
    ∃ p' r q old, processToStage B fuel p k .on = (p', .ok r) ∧ p'.elems = p.elems ∧
      (∀ j ≤ k, p'.queues[j]? = some []) ∧ (∀ j, k + 1 < j → p'.queues[j]? = p.queues[j]?) ∧
      p.queues[k + 1]? = some old ∧ p'.queues[k + 1]? = some q ∧
      q.reverse = old.reverse ++
        (pending fn ((ids p).take (k + 1)) (p.queues.take (k + 1))).map .data := by
  have main : ∀ m, m ≤ p.elems.length → ∃ p' r q old,
      stagesLoop B .on fuel p (List.range m) [] = (p', .ok r) ∧ p'.elems = p.elems ∧
      (∀ j < m, p'.queues[j]? = some []) ∧ (∀ j, m < j → p'.queues[j]? = p.queues[j]?) ∧
      p.queues[m]? = some old ∧ p'.queues[m]? = some q ∧ (∀ x ∈ q, ∃ d, x = Item.data d) ∧
      q.length ≤ ((p.queues.take (m + 1)).map (·.length)).sum ∧
      q.reverse = old.reverse ++ (pending fn ((ids p).take m) (p.queues.take m)).map .data := by
    intro m
    induction m with
    | zero =>
      intro hm
      have h0 : p.queues[0]? = some p.queues[0] := List.getElem?_eq_getElem (by omega)
      refine ⟨p, [], _, _, by simp [stagesLoop], rfl, by simp, fun _ _ => rfl, h0, h0,
        hdata _ (List.getElem_mem _), ?_, by simp [pending]⟩
      rw [List.take_add_one, h0]; simp
    | succ m ih =>
      intro hm
      obtain ⟨p1, r1, q, old, e1, e2, e3, e4, e5, e6, e7, e8, e9⟩ := ih (by omega)
      have he : p.elems[m]? = some p.elems[m] := List.getElem?_eq_getElem (by omega)
      have hn : p.queues[m + 1]? = some p.queues[m + 1] := List.getElem?_eq_getElem (by omega)
      have hlen : ((p.queues.take (m + 1)).map (·.length)).sum ≤ (p.queues.map (·.length)).sum := by
        have := congrArg (fun l => (l.map (·.length)).sum) (List.take_append_drop (m + 1) p.queues)
        simp only [List.map_append, List.sum_append] at this
        omega
      obtain ⟨p2, f1, f2, f3, f4, f5⟩ := drainLoop_exact hB .on m [] p.elems[m] fuel p1 q p.queues[m + 1] e7
        (by rw [e2]; exact he) e6 (by rw [e4 _ (by omega)]; exact hn) (by omega)
      have hso : stageOnce B .on fuel p1 m = (p2, .ok []) := by
        unfold stageOnce
        simp only [e6]
        exact f1
      have hnd : ∀ x ∈ p.queues[m + 1], ∃ d, x = Item.data d := hdata _ (List.getElem_mem _)
      refine ⟨p2, r1 ++ [[]], _, _, ?_, by rw [f2, e2], ?_, ?_, hn, f4, ?_, ?_, ?_⟩
      · rw [List.range_succ, stagesLoop_append, e1]
        simp [stagesLoop, hso]
      · intro j hj
        by_cases h : j = m
        · subst h; exact f3
        · rw [f5 j h (by omega)]; exact e3 j (by omega)
      · intro j hj
        rw [f5 j (by omega) (by omega)]; exact e4 j (by omega)
      · intro x hx
        rcases List.mem_append.mp hx with hx | hx
        · obtain ⟨y, hy, rfl⟩ := List.mem_map.mp hx
          obtain ⟨d, rfl⟩ := e7 y hy
          exact ⟨_, rfl⟩
        · exact hnd x hx
      · rw [List.take_add_one (i := m + 1), hn]
        simp only [List.map_append, List.sum_append, Option.toList_some, List.map_cons, List.map_nil,
          List.sum_cons, List.sum_nil, List.length_append, List.length_map]
        omega
      · rw [List.reverse_append, reverse_apply_data _ _ e7, e9]
        congr 1
        have hold : ∀ x ∈ old, ∃ d, x = Item.data d := hdata _ (List.mem_of_getElem? e5)
        have hdo : dataOf (old.reverse ++ (pending fn ((ids p).take m) (p.queues.take m)).map .data)
            = dataOf old.reverse ++ pending fn ((ids p).take m) (p.queues.take m) := by
          rw [dataOf_append, dataOf_map_data]
        rw [hdo]
        congr 1
        have hid : (ids p).take (m + 1) = (ids p).take m ++ [p.elems[m].id] := by
          rw [List.take_add_one]
          simp [ids, he]
        have hqs : p.queues.take (m + 1) = p.queues.take m ++ [old] := by
          rw [List.take_add_one, e5]; rfl
        have hl : ((ids p).take m).length = (p.queues.take m).length := by
          simp [ids]; omega
        rw [hid, hqs, pending_concat, pending_take_succ fn _ _ _ hl]
        rw [← hl]
        simp [through]
  obtain ⟨p', r, q, old, h1, h2, h3, h4, h5, h6, _, _, h9⟩ := main (k + 1) (by omega)
  refine ⟨p', r, q, old, ?_, h2, fun j hj => h3 j (by omega), h4, h5, h6, h9⟩
  unfold processToStage
  simp only [show (0 : Int) ≤ (k : Int) by omega, if_true]
  exact h1

example : (processToStage quickBeh 9 ⟨[⟨1, 0, ()⟩, ⟨2, 0, ()⟩, ⟨3, 0, ()⟩], [0, 5, 0],
    [[.data 4, .data 3], [.data 2], [.data 1], [.data 8]]⟩ 1 .on).1.queues
    = [[], [], [.data 412, .data 312, .data 22, .data 1], [.data 8]] := by decide

/-! ## C64 -/

/-- **C64**: `clear()` empties every queue (the output queue too) and changes nothing else. -/
theorem clear_empties_all (p : Pipe S D M) (hs : p.queues.length = p.elems.length + 1) :
    clearAll p = ({ p with queues := p.queues.map (fun _ => []) }, .ok ()) := by
  have main : ∀ (n : Nat) (p : Pipe S D M) (l : List Nat), p.queues.length = n → (∀ j ∈ l, j < n) →
      (clearStages p (l.map Int.ofNat)).2 = .ok () ∧ (clearStages p (l.map Int.ofNat)).1.elems = p.elems ∧
      (clearStages p (l.map Int.ofNat)).1.cycles = p.cycles ∧
      ∀ j, (clearStages p (l.map Int.ofNat)).1.queues[j]?
        = if j ∈ l then p.queues[j]?.map (fun _ => []) else p.queues[j]? := by
    intro n p l
    induction l generalizing p with
    | nil => intro _ _; simp [clearStages]
    | cons a l ih =>
      intro hl hb
      have hal : a < p.queues.length := by have := hb a (by simp); omega
      have ha : p.queues[a]? = some p.queues[a] := List.getElem?_eq_getElem hal
      simp only [List.map_cons, clearStages, Int.ofNat_eq_natCast, Py.get?_nat, ha, Py.update_nat]
      obtain ⟨h1, h2, h3, h4⟩ := ih { p with queues := p.queues.modify a (fun _ => []) } (by simpa using hl)
        (fun j hj => hb j (by simp [hj]))
      simp only [Int.ofNat_eq_natCast] at h1 h2 h3 h4
      refine ⟨h1, h2, h3, fun j => ?_⟩
      rw [h4 j]
      by_cases hja : a = j
      · subst hja
        simp only [List.getElem?_modify_eq, List.mem_cons, true_or, if_true]
        cases p.queues[a]? <;> simp
      · simp only [Py.getElem?_mod_ne _ _ _ _ hja, List.mem_cons, Ne.symm hja, false_or]
  obtain ⟨h1, h2, h3, h4⟩ := main _ p (List.range (p.elems.length + 1)) rfl (by simp; omega)
  have : clearAll p = clearStages p ((List.range (p.elems.length + 1)).map Int.ofNat) := rfl
  rw [this]
  generalize clearStages p ((List.range (p.elems.length + 1)).map Int.ofNat) = x at *
  obtain ⟨⟨es, cs, qs⟩, res⟩ := x
  simp only at h1 h2 h3 h4
  subst h1 h2 h3
  congr 2
  apply List.ext_getElem?
  intro j
  rw [h4 j, List.getElem?_map]
  split
  · rfl
  · rename_i h
    simp only [List.mem_range, Nat.not_lt] at h
    rw [List.getElem?_eq_none (by omega)]; rfl

/-- **C64**: `clear([k])` empties exactly the requested queue. -/
theorem clear_one (p : Pipe S D M) (k : Nat) (hk : k < p.queues.length) :
    (clearStages p [(k : Int)]).2 = .ok () ∧ (clearStages p [(k : Int)]).1.elems = p.elems ∧
    (clearStages p [(k : Int)]).1.queues[k]? = some [] ∧
    ∀ j ≠ k, (clearStages p [(k : Int)]).1.queues[j]? = p.queues[j]? := by
  have ha : p.queues[k]? = some p.queues[k] := List.getElem?_eq_getElem hk
  simp only [clearStages, Py.get?_nat, ha, Py.update_nat]
  refine ⟨trivial, trivial, by simp [ha], fun j hj => Py.getElem?_mod_ne _ _ _ _ (Ne.symm hj)⟩

/-- Outside the claim: attempt counters are *not* reset by `clear`, so a limited run right after clearing a
stage that was being retried can fail at once. -/
theorem clear_keeps_attempts (p : Pipe S D M) (hs : p.queues.length = p.elems.length + 1) :
    (clearAll p).1.cycles = p.cycles := by rw [clear_empties_all p hs]

example : (clearAll (⟨[⟨1, 0, ()⟩], [3], [[.data 4, .data 3], [.data 2]]⟩ : Pipe Unit Nat Unit)).1
    = ⟨[⟨1, 0, ()⟩], [3], [[], []]⟩ := by decide

end Verif.Pipeline
