import Verif.PipelineFifo

/-! Normal forms of a stage run (helper lemmas). -/

namespace Verif.Pipeline

open Verif

variable {S D M : Type}

/-- One attempt at a datum: `plProcess`, then `plInteract` if it returned `None`. -/
def attempt (B : Beh S D M) (e : Elem S) (d : D) : S × List D × Out D :=
  match B.process e d with
  | (s, r, .value y) => (s, r, .value y)
  | (s, r, .raise) => (s, r, .raise)
  | (s, r, .none) =>
    match B.interact { e with st := s } d with
    | (s', r', o) => (s', r ++ r', o)

theorem processStage_data (B : Beh S D M) (p : Pipe S D M) (k : Nat) (e : Elem S) (d : D)
    (q' : List (Item D M)) (he : p.elems[k]? = some e) (hq : p.queues[k]? = some (q' ++ [.data d]))
    (hacc : B.accepts e d = true) :
    processStage B p k =
      match attempt B e d with
      | (s, r, .value y) =>
        ({ elems := p.elems.modify k (fun e => { e with st := s })
           cycles := p.cycles.modify k (fun _ => 0)
           queues := (p.queues.modify k (fun _ => q' ++ r.map .data)).modify (k + 1)
             (Py.appendleft (.data y)) }, .ok .complete)
      | (s, r, .raise) =>
        ({ elems := p.elems.modify k (fun e => { e with st := s })
           cycles := p.cycles
           queues := p.queues.modify k (fun _ => q' ++ r.map .data ++ [.data d]) }, .error .elem)
      | (s, r, .none) =>
        ({ elems := p.elems.modify k (fun e => { e with st := s })
           cycles := p.cycles.modify k (· + 1)
           queues := p.queues.modify k (fun _ => q' ++ r.map .data) }, .ok .incomplete) := by
  have h0 : processStage B p k = stageData B
      { p with queues := p.queues.modify k (fun _ => q') } k e d := by
    unfold processStage
    simp only [Py.get?_nat, he, hq, Option.bind_some, Py.popright_append, Py.update_nat]
  rw [h0]
  unfold attempt
  rcases hpr : B.process e d with ⟨s1, r1, o1⟩
  cases o1 with
  | value y =>
    simp only [stageData, hacc, if_true, hpr, enqueue, resave, setSt, Py.update_nat, Py.update_succ,
      modify_modify]; rfl
  | raise =>
    simp only [stageData, hacc, if_true, hpr, resave, setSt, Py.update_nat, modify_modify]; rfl
  | none =>
    rcases hin : B.interact { e with st := s1 } d with ⟨s2, r2, o2⟩
    have hel : (fun e : Elem S => ({ e with st := s2 } : Elem S)) ∘
        (fun e : Elem S => ({ e with st := s1 } : Elem S))
      = fun e : Elem S => ({ e with st := s2 } : Elem S) := rfl
    cases o2 <;>
      simp only [stageData, hacc, if_true, hpr, hin, enqueue, resave, setSt, Py.update_nat,
        Py.update_succ, modify_modify, hel, List.map_append, Function.comp_def, Py.append,
        List.append_assoc]

theorem processStage_noelem (B : Beh S D M) (p : Pipe S D M) (k : Nat) (h : p.elems[k]? = none) :
    processStage B p k = (p, .error .indexError) := by
  simp [processStage, h]

theorem processStage_empty (B : Beh S D M) (p : Pipe S D M) (k : Nat)
    (h : p.queues[k]? = none ∨ p.queues[k]? = some []) :
    processStage B p k = (p, .error .indexError) := by
  unfold processStage
  simp only [Py.get?_nat]
  split
  · rfl
  · rcases h with h | h <;> simp [h, Py.popright]

theorem processStage_reject (B : Beh S D M) (p : Pipe S D M) (k : Nat) (e : Elem S) (d : D)
    (q' : List (Item D M)) (he : p.elems[k]? = some e) (hq : p.queues[k]? = some (q' ++ [.data d]))
    (hacc : B.accepts e d = false) :
    processStage B p k = ({ p with queues := p.queues.modify k (fun _ => q') }, .error .typeError) := by
  unfold processStage
  simp [he, hq, stageData, hacc]

theorem processStage_msg (B : Beh S D M) (p : Pipe S D M) (k : Nat) (e : Elem S) (m : Msg M)
    (q' : List (Item D M)) (he : p.elems[k]? = some e) (hq : p.queues[k]? = some (q' ++ [.msg m])) :
    processStage B p k =
      stageMsg B { p with queues := p.queues.modify k (fun _ => q') } k e m := by
  unfold processStage
  simp [he, hq]

/-- The four ways a stage run can start. -/
theorem stage_cases (p : Pipe S D M) (k : Nat) :
    p.elems[k]? = none ∨ (p.queues[k]? = none ∨ p.queues[k]? = some []) ∨
    (∃ e q' d, p.elems[k]? = some e ∧ p.queues[k]? = some (q' ++ [.data d])) ∨
    (∃ e q' m, p.elems[k]? = some e ∧ p.queues[k]? = some (q' ++ [.msg m])) := by
  cases he : p.elems[k]? with
  | none => simp
  | some e =>
    right
    cases hq : p.queues[k]? with
    | none => simp
    | some q =>
      rcases List.eq_nil_or_concat q with rfl | ⟨q', x, rfl⟩
      · simp
      · right
        cases x with
        | data d => exact Or.inl ⟨e, q', d, by simp⟩
        | msg m => exact Or.inr ⟨e, q', m, by simp⟩

end Verif.Pipeline
