import Verif.Pipeline
import Verif.PyListLemmas

/-! Helper lemmas for the pipeline model (not property theorems). -/

namespace Verif.Pipeline

open Verif

variable {S D M : Type}

/-! ## Generic preservation -/

/-- Anything preserved by a stage run with a nonnegative stage number is preserved by the loops. -/
theorem retryLoop_pres (B : Beh S D M) (P : Pipe S D M → Prop)
    (hP : ∀ p (k : Nat), P p → P (processStage B p k).1) (hit : Nat → Bool) :
    ∀ fuel p st acc, P p → P (retryLoop B hit fuel p st acc).1 := by
  intro fuel
  induction fuel with
  | zero => intro p st acc h; simpa [retryLoop]
  | succ n ih =>
    intro p st acc h
    unfold retryLoop
    split
    · exact h
    · split
      · exact h
      · have := hP p st h
        split
        · rename_i heq; rw [heq] at this; exact this
        · rename_i heq; rw [heq] at this; exact ih _ _ _ this

theorem drainLoop_pres (B : Beh S D M) (P : Pipe S D M → Prop)
    (hP : ∀ p (k : Nat), P p → P (processStage B p k).1) (rep : Repeat) :
    ∀ fuel p st acc, P p → P (drainLoop B rep fuel p st acc).1 := by
  intro fuel
  induction fuel with
  | zero => intro p st acc h; simpa [drainLoop]
  | succ n ih =>
    intro p st acc h
    unfold drainLoop
    split
    · exact h
    · have := hP p st h
      split
      · rename_i heq; rw [heq] at this; exact this
      · rename_i p' _ heq
        rw [heq] at this
        have h2 := retryLoop_pres B P hP rep.hit n p' st acc this
        split
        · rename_i heq; rw [heq] at h2; exact h2
        · rename_i heq; rw [heq] at h2; exact ih _ _ _ h2

theorem stageOnce_pres (B : Beh S D M) (P : Pipe S D M → Prop)
    (hP : ∀ p (k : Nat), P p → P (processStage B p k).1) (rep : Repeat) (fuel : Nat)
    (p : Pipe S D M) (st : Nat) (h : P p) : P (stageOnce B rep fuel p st).1 := by
  unfold stageOnce
  split
  · exact h
  · split
    · split
      · have := hP p st h
        split <;> rename_i heq <;> rw [heq] at this <;> exact this
      · exact h
    · exact drainLoop_pres B P hP _ _ _ _ _ h

theorem stagesLoop_pres (B : Beh S D M) (P : Pipe S D M → Prop)
    (hP : ∀ p (k : Nat), P p → P (processStage B p k).1) (rep : Repeat) (fuel : Nat)
    (sts : List Nat) : ∀ p acc, P p → P (stagesLoop B rep fuel p sts acc).1 := by
  induction sts with
  | nil => intro p acc h; simpa [stagesLoop]
  | cons st sts ih =>
    intro p acc h
    unfold stagesLoop
    have := stageOnce_pres B P hP rep fuel p st h
    split <;> rename_i heq <;> rw [heq] at this
    · exact this
    · exact ih _ _ this

theorem processToStage_pres (B : Beh S D M) (P : Pipe S D M → Prop)
    (hP : ∀ p (k : Nat), P p → P (processStage B p k).1) (rep : Repeat) (fuel : Nat)
    (p : Pipe S D M) (k : Int) (h : P p) : P (processToStage B fuel p k rep).1 :=
  stagesLoop_pres B P hP rep fuel _ p _ h

/-! ## Shape -/

/-- One queue per element plus the output queue, one counter per element. -/
def Shape (p : Pipe S D M) : Prop :=
  p.cycles.length = p.elems.length ∧ p.queues.length = p.elems.length + 1

theorem shape_setSt {p : Pipe S D M} (k : Int) (s : S) (h : Shape p) : Shape (setSt p k s) := by
  simpa [Shape, setSt] using h
theorem shape_resave {p : Pipe S D M} (k : Int) (ds : List D) (h : Shape p) :
    Shape (resave p k ds) := by
  simpa [Shape, resave] using h
theorem shape_enqueue {p : Pipe S D M} (k : Int) (x : Item D M) (h : Shape p) :
    Shape (enqueue p k x) := by
  simpa [Shape, enqueue] using h

theorem shape_queues {p : Pipe S D M} (k : Int) (f) (h : Shape p) :
    Shape { p with queues := Py.update p.queues k f } := by
  simpa [Shape] using h
theorem shape_cycles {p : Pipe S D M} (k : Int) (f) (h : Shape p) :
    Shape { p with cycles := Py.update p.cycles k f } := by
  simpa [Shape] using h

theorem shape_stageMsg (B : Beh S D M) (p : Pipe S D M) (k : Int) (e : Elem S) (m : Msg M)
    (h : Shape p) : Shape (stageMsg B p k e m).1 := by
  unfold stageMsg
  dsimp only
  have hp : ∀ (p : Pipe S D M) (m : Msg M) (b : Bool), Shape p → Shape
      (if k = (p.elems.length : Int) - 1 then
        if m.nprocessed = 0 then (p, Except.error Exc.pipelineError)
        else (p, Except.ok (StageRet.message b true))
      else (enqueue p (k + 1) (.msg m), Except.ok (StageRet.message b true))).1 := by
    intro p m b h
    split
    · split <;> exact h
    · exact shape_enqueue _ _ h
  split
  · exact hp _ _ _ h
  · split
    · split
      · exact hp _ _ _ (shape_setSt _ _ h)
      · exact shape_setSt _ _ h
    · exact shape_setSt _ _ h

theorem shape_stageData (B : Beh S D M) (p : Pipe S D M) (k : Int) (e : Elem S) (d : D)
    (h : Shape p) : Shape (stageData B p k e d).1 := by
  unfold stageData
  dsimp only
  split
  · have h1 := shape_resave k (B.process e d).2.1 (shape_setSt k (B.process e d).1 h)
    split
    · exact shape_cycles _ _ (shape_enqueue _ _ h1)
    · exact shape_queues _ _ h1
    · have h2 := shape_resave k (B.interact { e with st := (B.process e d).1 } d).2.1
        (shape_setSt k (B.interact { e with st := (B.process e d).1 } d).1 h1)
      split
      · exact shape_cycles _ _ (shape_enqueue _ _ h2)
      · exact shape_queues _ _ h2
      · exact shape_cycles _ _ h2
  · exact h

theorem shape_processStage (B : Beh S D M) (p : Pipe S D M) (k : Int) (h : Shape p) :
    Shape (processStage B p k).1 := by
  unfold processStage
  split
  · exact h
  · split
    · exact h
    · dsimp only
      split
      · exact shape_stageMsg _ _ _ _ _ (shape_queues _ _ h)
      · exact shape_stageData _ _ _ _ _ (shape_queues _ _ h)

theorem shape_feed {p : Pipe S D M} (x : Item D M) (h : Shape p) : Shape (feed p x) :=
  shape_queues _ _ h

theorem shape_feedMany (xs : List (Item D M)) : ∀ {p : Pipe S D M}, Shape p → Shape (feedMany p xs) := by
  induction xs with
  | nil => intro p h; exact h
  | cons x xs ih => intro p h; exact ih (shape_feed x h)

theorem shape_extractLast (p : Pipe S D M) (a : Bool) (h : Shape p) :
    Shape (extractLast p a).1 := by
  unfold extractLast
  split
  · exact h
  · split
    · exact shape_queues _ _ h
    · split
      · exact h
      · exact shape_queues _ _ h

theorem shape_extract (B : Beh S D M) (fuel : Nat) (p : Pipe S D M) (a b : Bool) (h : Shape p) :
    Shape (extract B fuel p a b).1 := by
  unfold extract
  split
  · have := processToStage_pres B Shape (fun p k => shape_processStage B p k) .on fuel p (-1) h
    split <;> rename_i heq <;> rw [heq] at this
    · exact this
    · exact shape_extractLast _ _ this
  · exact shape_extractLast _ _ h

theorem singleRetry_pres (B : Beh S D M) (P : Pipe S D M → Prop)
    (hP : ∀ p (k : Nat), P p → P (processStage B p k).1)
    (hA : ∀ p (k : Nat) x, P p → P { p with queues := Py.update p.queues k (Py.append x) })
    (limit : Nat) (rf : Bool) (pre : Item D M) :
    ∀ fuel p st, P p → P (singleRetry B limit rf pre fuel p st).1 := by
  intro fuel
  induction fuel with
  | zero => intro p st h; simpa [singleRetry]
  | succ n ih =>
    intro p st h
    unfold singleRetry
    split
    · exact h
    · split
      · dsimp only
        split
        · exact h
        · exact hA _ _ _ h
      · have := hP p st h
        split <;> rename_i heq <;> rw [heq] at this
        · exact this
        · exact ih _ _ this

theorem singleLoop_pres (B : Beh S D M) (P : Pipe S D M → Prop)
    (hP : ∀ p (k : Nat), P p → P (processStage B p k).1)
    (hA : ∀ p (k : Nat) x, P p → P { p with queues := Py.update p.queues k (Py.append x) })
    (fuel limit : Nat) (rf : Bool) (sts : List Nat) :
    ∀ p, P p → P (singleLoop B fuel limit rf p sts).1 := by
  induction sts with
  | nil => intro p h; simpa [singleLoop]
  | cons st sts ih =>
    intro p h
    unfold singleLoop
    split
    · exact h
    · have := hP p st h
      split <;> rename_i heq <;> rw [heq] at this
      · exact this
      · rename_i pre _ _ p' _
        have h2 := singleRetry_pres B P hP hA limit rf pre fuel p' st this
        split <;> rename_i heq <;> rw [heq] at h2
        · exact h2
        · exact ih _ h2

theorem shape_processSingle (B : Beh S D M) (fuel : Nat) (p : Pipe S D M) (x : Item D M)
    (l : Nat) (rf : Bool) (h : Shape p) : Shape (processSingle B fuel p x l rf).1 := by
  unfold processSingle
  dsimp only
  have := singleLoop_pres B Shape (fun p k => shape_processStage B p k)
    (fun p k x h => shape_queues _ _ h) fuel l rf (List.range p.elems.length) _
    (shape_queues 0 (Py.append x) h)
  split <;> rename_i heq <;> rw [heq] at this
  · exact this
  · split
    · exact this
    · exact shape_queues _ _ this

theorem shape_clearStages (ks : List Int) : ∀ {p : Pipe S D M}, Shape p → Shape (clearStages p ks).1 := by
  induction ks with
  | nil => intro p h; exact h
  | cons k ks ih =>
    intro p h
    unfold clearStages
    split
    · exact h
    · exact ih (shape_queues _ _ h)

theorem shape_addElement {p : Pipe S D M} (k : Int) (e : Elem S) (h : Shape p) :
    Shape (addElement p k e) := by
  simp [Shape, addElement] at *; omega

theorem idx_of_shape {p : Pipe S D M} {k : Int} {j : Nat}
    (hj : Py.idx p.elems.length k = some j) (h : Shape p) :
    (∃ i, Py.idx p.queues.length k = some i) ∧
    Py.idx p.cycles.length k = some j ∧ ∃ i, Py.idx (p.queues.length - 1) k = some i := by
  obtain ⟨h1, h2⟩ := h
  rw [h1, h2]
  refine ⟨?_, hj, ?_⟩
  · unfold Py.idx at *
    split at hj <;> split at hj <;> simp at hj
    · rename_i a b; exact ⟨k.toNat, by rw [if_pos a, if_pos (by omega)]⟩
    · rename_i a b; exact ⟨(k + (p.elems.length + 1 : Nat)).toNat, by rw [if_neg a, if_pos (by omega)]⟩
  · exact ⟨j, by simpa using hj⟩

/-- `removeElement` on a well-shaped pipeline: IndexError without any change, or full success. -/
theorem removeElement_eq (p : Pipe S D M) (k : Int) (kd : Bool) (h : Shape p) :
    (Py.idx p.elems.length k = none ∧ removeElement p k kd = (p, .error .indexError)) ∨
    ∃ j i, ∃ (hj : j < p.elems.length) (hi : i < p.queues.length),
      Py.idx p.elems.length k = some j ∧ Py.idx p.queues.length k = some i ∧
      removeElement p k kd =
        ({ elems := p.elems.eraseIdx j
           cycles := p.cycles.eraseIdx j
           queues := if kd then (p.queues.eraseIdx i).modify j (fun q => p.queues[i] ++ q)
                     else p.queues.eraseIdx i }, .ok p.elems[j]) := by
  cases hj : Py.idx p.elems.length k with
  | none => left; simp [removeElement, Py.pop?_none.mpr hj]
  | some j =>
    right
    obtain ⟨⟨i, hi⟩, hc, _⟩ := idx_of_shape hj h
    obtain ⟨hjl, e1⟩ := Py.pop?_some hj
    obtain ⟨hil, e2⟩ := Py.pop?_some hi
    obtain ⟨hcl, e3⟩ := Py.pop?_some hc
    refine ⟨j, i, hjl, hil, rfl, hi, ?_⟩
    have h4 : Py.idx (p.queues.eraseIdx i).length k = some j := by
      rw [List.length_eraseIdx_of_lt hil, h.2]; simpa using hj
    have hlen : j < (p.queues.eraseIdx i).length := Py.idx_some_lt h4
    unfold removeElement
    simp only [e1, e2, e3]
    cases kd with
    | false => simp
    | true =>
      simp only [if_true]
      rw [Py.get?_eq h4, List.getElem?_eq_getElem hlen]
      dsimp only
      rw [Py.update_eq h4]
      simp only [Py.rotate_append]

theorem shape_removeElement {p : Pipe S D M} (k : Int) (kd : Bool) (h : Shape p) :
    Shape (removeElement p k kd).1 := by
  rcases removeElement_eq p k kd h with ⟨_, e⟩ | ⟨j, i, hj, hi, _, _, e⟩
  · rw [e]; exact h
  · rw [e]
    obtain ⟨h1, h2⟩ := h
    refine ⟨?_, ?_⟩
    · simp only [List.length_eraseIdx]; rw [h1]
    · have : (p.queues.eraseIdx i).length = p.elems.length := by
        rw [List.length_eraseIdx_of_lt hi]; omega
      cases kd <;> simp [List.length_eraseIdx_of_lt hj, List.length_eraseIdx_of_lt hi] <;> omega

theorem shape_step (B : Beh S D M) (p : Pipe S D M) (op : Op S D M) (h : Shape p) :
    Shape (step B p op).1 := by
  cases op with
  | feed x => exact shape_feed x h
  | feedMany xs => exact shape_feedMany xs h
  | processStage k => exact shape_processStage B p k h
  | processTo k rep fuel =>
    exact processToStage_pres B Shape (fun p k => shape_processStage B p k) rep fuel p k h
  | extract a b fuel =>
    exact shape_extract B fuel p a b h
  | single x l r fuel =>
    exact shape_processSingle B fuel p x l r h
  | add k e => exact shape_addElement k e h
  | remove k kd => exact shape_removeElement k kd h
  | clear ks =>
    cases ks with
    | none => exact shape_clearStages _ h
    | some ks => exact shape_clearStages ks h

theorem shape_mk (es : List (Elem S)) : Shape (mk es : Pipe S D M) := by
  simp [Shape, mk]

theorem shape_run (B : Beh S D M) (ops : List (Op S D M)) :
    ∀ p, Shape p → Shape (run B p ops).1 := by
  induction ops with
  | nil => intro p h; exact h
  | cons op ops ih => intro p h; exact ih _ (shape_step B p op h)

end Verif.Pipeline
