import Verif.PipelineFifo

/-!
# Property theorems for astropysics/pipeline.py (C01–C05, C09)
-/

namespace Verif.Pipeline

open Verif

variable {S D M : Type}

/-! ## C01 -/

theorem good_step {B : Beh S D M} {fn : Nat → D → D} (hB : Faithful B fn) {is pend}
    (p : Pipe S D M) (op : Op S D M) (hop : op.Standard) (h : Good fn is pend p) :
    ∃ pend', Good fn is pend' (step B p op).1 ∧
      dataOf (step B p op).2 ++ pend' = pend ++ (op.fed).map (through fn is) := by
  have hlast : ∀ (all : Bool) {p : Pipe S D M}, Good fn is pend p → ∃ pend',
      Good fn is pend' (extractLast p all).1 ∧ dataOf (handed (extractLast p all).2) ++ pend' = pend := by
    intro all p h
    have := extractLast_good all h
    rcases heq : extractLast p all with ⟨p', r⟩
    rw [heq] at this
    cases r with
    | ok xs =>
      obtain ⟨pend', h1, h2⟩ := this
      exact ⟨pend', h2, h1.symm⟩
    | error e =>
      simp only at this
      rw [this]; exact ⟨pend, h, rfl⟩
  cases op with
  | feed x => exact ⟨_, feed_good x h, by simp [Op.fed, dataOf, step]⟩
  | feedMany xs => exact ⟨_, feedMany_good xs h, by simp [Op.fed, dataOf, step]⟩
  | processStage k =>
    refine ⟨pend, ?_, by simp [Op.fed, dataOf, step]⟩
    have : k = ((k.toNat : Nat) : Int) := by simp [Op.Standard] at hop; omega
    rw [this]
    exact good_processStage hB p k.toNat h
  | processTo k rep fuel =>
    exact ⟨pend, processToStage_pres B _ (fun p k => good_processStage hB p k) rep fuel p k h,
      by simp [Op.fed, dataOf, step]⟩
  | extract all auto fuel =>
    simp only [Op.fed, List.map_nil, List.append_nil, step, extract]
    cases auto with
    | false => simpa using hlast all h
    | true =>
      have := processToStage_pres B _ (fun p k => good_processStage hB p k) .on fuel p (-1) h
      rcases hps : processToStage B fuel p (-1) .on with ⟨p', r⟩
      rw [hps] at this
      cases r with
      | error e => exact ⟨pend, by simpa using this, by simp [dataOf, handed]⟩
      | ok r => simpa using hlast all this
  | single _ _ _ _ => exact absurd hop (by simp [Op.Standard])
  | add _ _ => exact absurd hop (by simp [Op.Standard])
  | remove _ _ => exact absurd hop (by simp [Op.Standard])
  | clear _ => exact absurd hop (by simp [Op.Standard])

theorem good_run {B : Beh S D M} {fn : Nat → D → D} (hB : Faithful B fn) {is}
    (ops : List (Op S D M)) : ∀ {p : Pipe S D M} {pend}, (∀ op ∈ ops, op.Standard) → Good fn is pend p →
    ∃ pend', Good fn is pend' (run B p ops).1 ∧
      dataOf (run B p ops).2 ++ pend' = pend ++ (ops.flatMap Op.fed).map (through fn is) := by
  induction ops with
  | nil => intro p pend _ h; exact ⟨pend, h, by simp [run, dataOf]⟩
  | cons op ops ih =>
    intro p pend hops h
    obtain ⟨pend1, g1, e1⟩ := good_step hB p op (hops op (by simp)) h
    obtain ⟨pend2, g2, e2⟩ := ih (fun op h => hops op (by simp [h])) g1
    refine ⟨pend2, g2, ?_⟩
    simp only [run, dataOf_append, List.flatMap_cons, List.map_append]
    rw [List.append_assoc, e2, ← List.append_assoc, e1, List.append_assoc]

/-- **C01.** Whatever the interleaving of feeds, stage runs, processing to any stage in any repeat mode
(also interrupted, also ended by an exception) and extractions: the data handed out so far, followed by
what the queued data stand for, is the composed function of all stages mapped over the data fed, in
feeding order.  Elements may raise or ask for a retry at any time (`Faithful`); messages may be fed among
the data. -/
theorem pipeline_conserves_data_in_order (B : Beh S D M) (fn : Nat → D → D) (hB : Faithful B fn)
    (es : List (Elem S)) (ops : List (Op S D M)) (hops : ∀ op ∈ ops, op.Standard) :
    dataOf (run B (mk es) ops).2 ++ pending fn (es.map (·.id)) (run B (mk es) ops).1.queues
      = (ops.flatMap Op.fed).map (through fn (es.map (·.id))) := by
  have hp0 : ∀ (is : List Nat) n, pending (M := M) fn is (List.replicate n []) = [] := by
    intro is n
    induction n generalizing is with
    | zero => rfl
    | succ n ih => simp [List.replicate_succ, pending, ih, dataOf]
  have h0 : Good fn (es.map (·.id)) [] (mk es : Pipe S D M) :=
    ⟨shape_mk es, rfl, hp0 _ _⟩
  obtain ⟨pend', g, e⟩ := good_run hB ops hops h0
  rw [g.pend]
  simpa using e

/-- **C01**, as seen by a caller: what has been extracted is always a prefix of the full list of results
in feeding order. -/
theorem extracted_is_prefix (B : Beh S D M) (fn : Nat → D → D) (hB : Faithful B fn)
    (es : List (Elem S)) (ops : List (Op S D M)) (hops : ∀ op ∈ ops, op.Standard) :
    dataOf (run B (mk es) ops).2 <+: (ops.flatMap Op.fed).map (through fn (es.map (·.id))) :=
  ⟨_, pipeline_conserves_data_in_order B fn hB es ops hops⟩

/-- An element kind for the examples: state = number of attempts made so far; it saves the datum and
asks for a retry on every first attempt of two, and computes `10 * d + id` on the second. -/
def demoBeh : Beh Nat Nat Unit where
  accepts _ _ := true
  process e d := if e.st % 2 = 0 then (e.st + 1, [d], .none) else (e.st + 1, [], .value (10 * d + e.id))
  interact e _ := (e.st, [], .none)
  deliver _ e := (e.st, true)

theorem demoBeh_faithful : Faithful demoBeh (fun i d => 10 * d + i) := by
  intro e d
  refine ⟨rfl, ?_⟩
  simp only [demoBeh]
  by_cases h : e.st % 2 = 0 <;> simp [h]

/-- The hypotheses are met and the claim is not empty: retries, a message, an exception (stage 7 does
not exist) and two extractions. -/
example : (run demoBeh (mk [⟨1, 0, 0⟩, ⟨2, 0, 0⟩])
      [.feed (.data 5), .feed (.msg ⟨.cls 0, 0, ()⟩), .processStage 0, .feedMany [.data 6, .data 7],
       .processTo (-1) .on 20, .processStage 7, .extract false false 0, .extract false true 5]).2
    = [.data 512, .data 612] := by decide

/-- Outside the claim: a negative stage number makes `processStage` take the *output* queue's data and
feed them back to the first stage, so that the order (and the number of passes) is lost. -/
theorem processStage_negative_breaks_order :
    ∃ (es : List (Elem Nat)) (ops : List (Op Nat Nat Unit)),
      ¬ (dataOf (run demoBeh (mk es) ops).2 <+:
          (ops.flatMap Op.fed).map (through (fun i d => 10 * d + i) (es.map (·.id)))) :=
  ⟨[⟨1, 0, 0⟩], [.feed (.data 5), .processTo (-1) .on 9, .processStage (-1), .processStage (-1),
    .processTo (-1) .on 9, .extract false false 0], by decide⟩

/-! ## C02 -/

/-- **C02.** One retry counter and one input queue per element, plus one output queue, after every
history of calls with any stage numbers and any element behaviour. -/
theorem queues_match_elements (B : Beh S D M) (es : List (Elem S)) (ops : List (Op S D M)) :
    (run B (mk es) ops).1.cycles.length = (run B (mk es) ops).1.elems.length ∧
    (run B (mk es) ops).1.queues.length = (run B (mk es) ops).1.elems.length + 1 :=
  shape_run B ops _ (shape_mk es)

example : (run demoBeh (mk [⟨1, 0, 0⟩]) [.add 5 ⟨2, 0, 0⟩, .add (-7) ⟨3, 0, 0⟩, .remove (-1) true,
    .remove 9 false, .feed (.data 1), .clear none]).1.elems.length = 2 := by decide

/-! ## C03, C04: editing the pipeline -/

/-- The items waiting in queue `j`, oldest first (`j` = number of elements is the output). -/
def waiting (p : Pipe S D M) (j : Nat) : List (Item D M) := ((p.queues[j]?).getD []).reverse

/-- **C03** for the stage numbers `0 ≤ k ≤ n`: elements, counters and queues at positions before `k` are
unchanged, those from `k` on (including the output queue) move one position to the right together, and the
new element at `k` starts with an empty queue.
Missing for the full claim: negative and too large stage numbers, for which it is false
(`addElement_misaligned_negative`, `addElement_misaligned_large`). -/
theorem addElement_pushes_forward (p : Pipe S D M) (e : Elem S) (k : Nat)
    (hs : p.queues.length = p.elems.length + 1) (hc : p.cycles.length = p.elems.length)
    (hk : k ≤ p.elems.length) :
    (∀ j, (addElement p k e).elems[j]? =
      if j < k then p.elems[j]? else if j = k then some e else p.elems[j - 1]?) ∧
    (∀ j, (addElement p k e).cycles[j]? =
      if j < k then p.cycles[j]? else if j = k then some 0 else p.cycles[j - 1]?) ∧
    (∀ j, waiting (addElement p k e) j =
      if j < k then waiting p j else if j = k then [] else waiting p (j - 1)) := by
  have hins : ∀ {α : Type} (l : List α) (x : α) (j : Nat), k ≤ l.length →
      (Py.insert l (k : Int) x)[j]? =
        if j < k then l[j]? else if j = k then some x else l[j - 1]? := by
    intro α l x j hl
    have : Py.insertPos l.length (k : Int) = k := by unfold Py.insertPos; simp; omega
    simp only [Py.insert, this]
    by_cases h1 : j < k
    · simp only [h1, if_true]
      rw [List.getElem?_append_left (by simp; omega)]
      simp [h1]
    · rw [List.getElem?_append_right (by simp; omega)]
      have h2 : (l.take k).length = k := by simp; omega
      simp only [h1, if_false, h2]
      by_cases h3 : j = k
      · simp [h3]
      · have : j - k = (j - 1 - k) + 1 := by omega
        rw [this]
        simp only [h3, if_false, List.getElem?_cons_succ, List.getElem?_drop]
        congr 1
        omega
  refine ⟨fun j => hins _ _ _ hk, fun j => hins _ _ _ (by omega), fun j => ?_⟩
  unfold waiting addElement
  simp only [hins p.queues [] j (by omega)]
  split
  · rfl
  · split <;> rfl

example : waiting (addElement (⟨[⟨1, 0, 0⟩, ⟨2, 0, 0⟩], [0, 3], [[.data 1], [.data 2], [.data 3]]⟩ :
    Pipe Nat Nat Unit) 1 ⟨9, 0, 0⟩) 2 = [.data 2] := by decide

/-- The full claim C03 about one call: some position `j` exists at which the new element goes, with
an empty queue, all old elements keeping their own queues. -/
def AddAligned (p p' : Pipe S D M) (e : Elem S) : Prop :=
  ∃ j ≤ p.elems.length,
    (∀ i, p'.elems[i]? = if i < j then p.elems[i]? else if i = j then some e else p.elems[i - 1]?) ∧
    (∀ i, waiting p' i = if i < j then waiting p i else if i = j then [] else waiting p (i - 1))

/-- `AddAligned` for all in-range stage numbers. -/
theorem addElement_aligned (p : Pipe S D M) (e : Elem S) (k : Nat)
    (hs : p.queues.length = p.elems.length + 1) (hc : p.cycles.length = p.elems.length)
    (hk : k ≤ p.elems.length) : AddAligned p (addElement p k e) e :=
  ⟨k, hk, (addElement_pushes_forward p e k hs hc hk).1,
    (addElement_pushes_forward p e k hs hc hk).2.2⟩

/-- C03 is false for negative stage numbers: `addElement(-1, e)` puts `e` before the last element but
the new empty queue before the *output* queue, so the new element gets the last element's data. -/
theorem addElement_misaligned_negative :
    ∃ (p : Pipe Nat Nat Unit) (e : Elem Nat), p.queues.length = p.elems.length + 1 ∧
      p.cycles.length = p.elems.length ∧ ¬ AddAligned p (addElement p (-1) e) e := by
  refine ⟨⟨[⟨1, 0, 0⟩], [0], [[.data 7], []]⟩, ⟨2, 0, 0⟩, by decide, by decide, ?_⟩
  rintro ⟨j, hj, h1, h2⟩
  have e0 := h1 0
  have w0 := h2 0
  have : j = 0 := by
    by_cases h : 0 < j
    · rw [if_pos h] at e0; exact absurd e0 (by decide)
    · omega
  subst this
  simp at w0
  revert w0
  decide

/-- C03 is false for stage numbers beyond the end: `addElement(n+1, e)` appends `e` but puts the new
queue behind the output queue, so finished data become input of the new element. -/
theorem addElement_misaligned_large :
    ∃ (p : Pipe Nat Nat Unit) (e : Elem Nat), p.queues.length = p.elems.length + 1 ∧
      p.cycles.length = p.elems.length ∧ ¬ AddAligned p (addElement p 2 e) e := by
  refine ⟨⟨[⟨1, 0, 0⟩], [0], [[], [.data 7]]⟩, ⟨2, 0, 0⟩, by decide, by decide, ?_⟩
  rintro ⟨j, hj, h1, h2⟩
  have e0 := h1 0
  have w0 := h2 1
  have hj1 : j = 0 ∨ j = 1 := by simp at hj; omega
  rcases hj1 with rfl | rfl
  · simp at e0; revert e0; decide
  · simp at w0; revert w0; decide

/-- **C04** for ordinary stage numbers `0 ≤ k < n`: exactly element `k` is removed and returned; the queues
behind it move left; with `keepdata` its data wait behind those of the next stage, oldest first;
without, exactly they are dropped.
Missing for the full claim: negative stage numbers, for which the *output* of the pipeline is
affected instead (`removeElement_negative_drops_output`). -/
theorem removeElement_keeps_order (p : Pipe S D M) (k : Nat) (keepdata : Bool)
    (hs : p.queues.length = p.elems.length + 1) (hc : p.cycles.length = p.elems.length)
    (hk : k < p.elems.length) :
    (removeElement p k keepdata).2 = .ok p.elems[k] ∧
    (removeElement p k keepdata).1.elems = p.elems.eraseIdx k ∧
    (removeElement p k keepdata).1.cycles = p.cycles.eraseIdx k ∧
    ∀ j, waiting (removeElement p k keepdata).1 j =
      if j < k then waiting p j
      else if j = k then waiting p (k + 1) ++ (if keepdata then waiting p k else [])
      else waiting p (j + 1) := by
  rcases removeElement_eq p k keepdata ⟨hc, hs⟩ with ⟨h0, _⟩ | ⟨j, i, hj, hi, e1, e2, e⟩
  · rw [Py.idx_nat] at h0; simp [hk] at h0
  · rw [Py.idx_nat] at e1 e2
    have hk2 : k < p.queues.length := by omega
    simp [hk] at e1
    simp [hk2] at e2
    subst e1 e2
    rw [e]
    refine ⟨rfl, rfl, rfl, ?_⟩
    intro j
    unfold waiting
    cases keepdata with
    | false =>
      simp only [Bool.false_eq_true, if_false, List.append_nil, List.getElem?_eraseIdx]
      by_cases h1 : j < k
      · simp [h1]
      · by_cases h2 : j = k <;> simp [h1, h2]
    | true =>
      simp only [if_true, List.getElem?_modify, List.getElem?_eraseIdx]
      by_cases h1 : j < k
      · have h3 : k ≠ j := by omega
        simp [h1, h3]
      · by_cases h2 : j = k
        · subst h2
          have h4 : j + 1 < p.queues.length := by omega
          simp [List.getElem?_eq_getElem h4, hk2]
        · have h3 : ¬ k = j := by omega
          simp [h1, h2, h3]

example : waiting (removeElement (⟨[⟨1, 0, 0⟩, ⟨2, 0, 0⟩], [0, 3],
    [[.data 4, .data 3], [.data 2, .data 1], []]⟩ : Pipe Nat Nat Unit) 0 true).1 0
    = [.data 1, .data 2, .data 3, .data 4] := by decide

/-- C04 is false for negative stage numbers: `removeElement(-1)` removes the last element but drops
the finished output, leaving the removed element's waiting data to be taken for output. -/
theorem removeElement_negative_drops_output :
    ∃ p : Pipe Nat Nat Unit, p.queues.length = p.elems.length + 1 ∧ p.cycles.length = p.elems.length ∧
      waiting p 0 = [.data 1] ∧ waiting p 1 = [.data 2] ∧
      (removeElement p (-1) false).1.elems = [] ∧ waiting (removeElement p (-1) false).1 0 = [.data 1] :=
  ⟨⟨[⟨1, 0, 0⟩], [0], [[.data 1], [.data 2]]⟩, by decide⟩

/-! ## C05 -/

/-- What the stage would handle next: the oldest item of its queue. -/
def nextItem (p : Pipe S D M) (k : Nat) : Option (Item D M) := (waiting p k).head?

/-- If the element raises on `d`, it has not called `resaveData` in that attempt. -/
def RaisesCleanly (B : Beh S D M) (d : D) : Prop :=
  ∀ e, (∀ s r, B.process e d = (s, r, .raise) → r = []) ∧
    (∀ s r s' r', B.process e d = (s, r, .none) → B.interact { e with st := s } d = (s', r', .raise) →
      r = [] ∧ r' = [])

/-- **C05.** If the next item of stage `k` is the datum `d` and running the stage ends in an exception of
the element (raised by `plProcess` or `plInteract`, without data having been re-saved by it), all queues
and counters are as before and no other element is touched. -/
theorem exception_leaves_datum_in_place (B : Beh S D M) (p p' : Pipe S D M) (k : Nat) (d : D)
    (hd : nextItem p k = some (.data d))
    (hno : RaisesCleanly B d)
    (h : processStage B p k = (p', .error .elem)) :
    p'.queues = p.queues ∧ p'.cycles = p.cycles ∧ ids p' = ids p ∧
      ∀ j ≠ k, p'.elems[j]? = p.elems[j]? := by
  unfold processStage at h
  simp only [Py.get?_nat] at h
  cases he : p.elems[k]? with
  | none => simp [he] at h
  | some e =>
    simp only [he] at h
    cases hq : p.queues[k]? with
    | none => simp [hq] at h
    | some q =>
      simp only [nextItem, waiting, hq, Option.getD_some, List.head?_reverse] at hd
      obtain ⟨q', rfl⟩ := List.getLast?_eq_some_iff.mp hd
      simp only [hq, Option.bind_some, Py.popright_append] at h
      unfold stageData at h
      by_cases hacc : B.accepts e d = true
      case neg => simp [hacc] at h
      rw [if_pos hacc] at h
      have key : ∀ f : List (Item D M) → List (Item D M), f q' = q' ++ [.data d] →
          (p.queues.modify k (fun _ => q')).modify k f = p.queues := by
        intro f hf
        rw [modify_modify, modify_const_id _ _ _ _ hq]
        simpa using hf
      rcases hpr : B.process e d with ⟨s1, r1, o1⟩
      obtain ⟨hn1, hn2⟩ := hno e
      simp only [hpr] at h
      cases o1 with
      | value y => simp at h
      | raise =>
        have := hn1 _ _ hpr
        subst this
        simp only [resave, setSt, Py.update_nat, List.map_nil, List.append_nil, Prod.mk.injEq] at h
        obtain ⟨rfl, _⟩ := h
        refine ⟨?_, rfl, ?_, ?_⟩
        · simp only; rw [modify_modify]; exact key _ rfl
        · have := ids_setSt p k s1
          simpa [setSt, ids] using this
        · intro j hj; exact Py.getElem?_mod_ne _ _ _ _ (Ne.symm hj)
      | none =>
        rcases hin : B.interact { e with st := s1 } d with ⟨s2, r2, o2⟩
        simp only [hin] at h
        cases o2 with
        | value y => simp at h
        | none => simp at h
        | raise =>
          obtain ⟨rfl, rfl⟩ := hn2 _ _ _ _ hpr hin
          simp only [resave, setSt, Py.update_nat, List.map_nil, List.append_nil, Prod.mk.injEq] at h
          obtain ⟨rfl, _⟩ := h
          refine ⟨?_, rfl, ?_, ?_⟩
          · simp only; rw [modify_modify, modify_modify]; exact key _ rfl
          · have h1 := ids_setSt (setSt p k s1) k s2
            rw [ids_setSt p k s1] at h1
            simpa [setSt, ids] using h1
          · intro j hj
            simp only
            rw [Py.getElem?_mod_ne _ _ _ _ (Ne.symm hj), Py.getElem?_mod_ne _ _ _ _ (Ne.symm hj)]

/-- **C05**, the type check: a datum of a type the element does not declare is dropped with a TypeError,
and nothing else changes. -/
theorem rejected_datum_is_dropped (B : Beh S D M) (p : Pipe S D M) (k : Nat) (e : Elem S) (d : D)
    (he : p.elems[k]? = some e) (hd : nextItem p k = some (.data d)) (hacc : B.accepts e d = false) :
    (processStage B p k).2 = .error .typeError ∧
    (processStage B p k).1.elems = p.elems ∧ (processStage B p k).1.cycles = p.cycles ∧
    (∀ j ≠ k, waiting (processStage B p k).1 j = waiting p j) ∧
    waiting p k = .data d :: waiting (processStage B p k).1 k := by
  cases hq : p.queues[k]? with
  | none => simp [nextItem, waiting, hq] at hd
  | some q =>
    simp only [nextItem, waiting, hq, Option.getD_some, List.head?_reverse] at hd
    obtain ⟨q', rfl⟩ := List.getLast?_eq_some_iff.mp hd
    have : processStage B p k = ({ p with queues := p.queues.modify k (fun _ => q') }, .error .typeError) := by
      unfold processStage
      simp [he, hq, stageData, hacc]
    rw [this]
    refine ⟨rfl, rfl, rfl, ?_, ?_⟩
    · intro j hj
      simp [waiting, Py.getElem?_mod_ne _ _ _ _ (Ne.symm hj)]
    · simp [waiting, hq]

/-- An element that rejects 0 and raises on odd data. -/
def pickyBeh : Beh Nat Nat Unit where
  accepts _ d := d ≠ 0
  process e d := if d % 2 = 1 then (e.st + 1, [], .raise) else (e.st, [], .value (d + 1))
  interact e _ := (e.st, [], .none)
  deliver _ e := (e.st, true)

example : processStage pickyBeh ⟨[⟨1, 0, 0⟩], [4], [[.data 2, .data 3], [.data 9]]⟩ 0
    = (⟨[⟨1, 0, 1⟩], [4], [[.data 2, .data 3], [.data 9]]⟩, .error .elem) := by decide
example : processStage pickyBeh ⟨[⟨1, 0, 0⟩], [4], [[.data 2, .data 0], [.data 9]]⟩ 0
    = (⟨[⟨1, 0, 0⟩], [4], [[.data 2], [.data 9]]⟩, .error .typeError) := by decide

/-! ## C09 -/

/-- **C09.** `extract(extractall=True, autoprocess=True)` on a pipeline whose elements complete, holding
any data anywhere (at least one datum): it returns everything the queued data stand for, oldest first, and
leaves every queue empty.  `fuel` only has to exceed the number of data by 2. -/
theorem extract_all_drains (B : Beh S D M) (fn : Nat → D → D) (hB : Completes B fn) (p : Pipe S D M)
    (hs : p.queues.length = p.elems.length + 1) (hc : p.cycles.length = p.elems.length)
    (hdata : ∀ q ∈ p.queues, ∀ x ∈ q, ∃ d, x = Item.data d)
    (hne : pending fn (ids p) p.queues ≠ []) (fuel : Nat)
    (hf : (pending fn (ids p) p.queues).length + 1 < fuel) :
    (extract B fuel p true true).2 = .ok ((pending fn (ids p) p.queues).map .data) ∧
    (∀ q ∈ (extract B fuel p true true).1.queues, q = []) ∧
    (extract B fuel p true true).1.elems = p.elems := by
  have hg : Good fn (ids p) (pending fn (ids p) p.queues) p := ⟨⟨hc, hs⟩, rfl, rfl⟩
  generalize hpd : pending fn (ids p) p.queues = pend at *
  obtain ⟨p', r, e1, e2, e3, e4, e5⟩ :=
    stagesLoop_completes hB fuel hf p.elems.length 0 p [] (by omega) hg hdata (by simp)
  have hpt : processToStage B fuel p (-1) .on = (p', .ok r) := by
    unfold processToStage
    simp only [show ¬ (0 : Int) ≤ -1 by omega, if_false]
    rw [hs, show ((p.elems.length + 1 : Nat) : Int) + -1 = (p.elems.length : Int) by omega]
    rw [Int.toNat_natCast, List.range_eq_range']
    exact e1
  have hlen := e2.shape.2
  rcases List.eq_nil_or_concat p'.queues with h0 | ⟨l, q, h0⟩
  · simp [h0] at hlen
  rw [List.concat_eq_append] at h0
  have hll : l.length = p.elems.length := by rw [h0, e4] at hlen; simpa using hlen
  have hl : ∀ q ∈ l, q = [] := by
    intro q hq
    obtain ⟨j, hj, rfl⟩ := List.getElem_of_mem hq
    have := e5 j (by omega)
    rw [h0, List.getElem?_append_left hj, List.getElem?_eq_getElem hj] at this
    simpa using this
  have hpl : ∀ (is : List Nat) (l : List (List (Item D M))), (∀ q ∈ l, q = []) → pending fn is l = [] := by
    intro is l h
    induction l generalizing is with
    | nil => rfl
    | cons q l ih =>
      rw [pending, ih _ (fun q hq => h q (by simp [hq])), h q (by simp)]; simp [dataOf]
  have hq : dataOf q.reverse = pend := by
    have := e2.pend
    rw [h0, pending_concat, hpl _ l hl] at this
    have hids : (ids p).length = l.length := by rw [hll]; simp [ids]
    rw [← hids] at this
    simp [through] at this
    exact this
  have hqd : q.reverse = pend.map .data := by
    rw [← hq]
    have hall : ∀ x ∈ q.reverse, ∃ d, x = Item.data d := fun x hx =>
      e3 q (by rw [h0]; simp) x (by simpa using hx)
    generalize q.reverse = r at hall
    induction r with
    | nil => rfl
    | cons x r ih =>
      obtain ⟨d, rfl⟩ := hall x (by simp)
      simp [dataOf, ← ih (fun x hx => hall x (by simp [hx]))]
  have hqne : q.length ≠ 0 := by
    intro h
    have : q = [] := List.length_eq_zero_iff.mp h
    rw [this] at hq
    exact hne (by rw [← hq]; rfl)
  have hidx : Py.idx p'.queues.length (-1) = some l.length := by
    rw [hlen, Py.idx_neg_one, e4, hll]
  have hget : Py.get? p'.queues (-1) = some q := by
    rw [Py.get?_eq hidx, h0]; simp
  have hex : extract B fuel p true true
      = ({ p' with queues := l ++ [[]] }, .ok q.reverse) := by
    unfold extract
    rw [if_pos rfl, hpt]
    simp only [extractLast, hget]
    rw [if_pos ⟨trivial, hqne⟩, Py.update_eq hidx, h0, modify_concat]
  rw [hex]
  refine ⟨by rw [hqd], ?_, e4⟩
  intro x hx
  simp at hx
  rcases hx with hx | hx
  · exact hl x hx
  · exact hx

/-- **C09**, no data: with everything empty `extract` raises IndexError and changes nothing. -/
theorem extract_empty_raises (B : Beh S D M) (p : Pipe S D M)
    (hs : p.queues.length = p.elems.length + 1) (hempty : ∀ q ∈ p.queues, q = []) (fuel : Nat)
    (all auto : Bool) : extract B (fuel + 1) p all auto = (p, .error .indexError) := by
  have hqj : ∀ j q, p.queues[j]? = some q → q = [] := fun j q h => hempty q (List.mem_of_getElem? h)
  have hso : ∀ j, j < p.queues.length → stageOnce B .on (fuel + 1) p j = (p, .ok []) := by
    intro j hj
    have hq := List.getElem?_eq_getElem hj
    have := hqj j _ hq
    rw [this] at hq
    simp [stageOnce, hq, drainLoop]
  have hloop : ∀ (sts : List Nat) acc, (∀ j ∈ sts, j < p.queues.length) →
      ∃ r, stagesLoop B .on (fuel + 1) p sts acc = (p, .ok r) := by
    intro sts
    induction sts with
    | nil => intro acc _; exact ⟨acc, rfl⟩
    | cons j sts ih =>
      intro acc h
      simp only [stagesLoop, hso j (h j (by simp))]
      exact ih _ (fun j hj => h j (by simp [hj]))
  have hlast : extractLast p all = (p, .error .indexError) := by
    have hidx : Py.idx p.queues.length (-1) = some p.elems.length := by rw [hs, Py.idx_neg_one]
    have hl : p.elems.length < p.queues.length := by omega
    have hget : Py.get? p.queues (-1) = some [] := by
      rw [Py.get?_eq hidx, List.getElem?_eq_getElem hl, hqj _ _ (List.getElem?_eq_getElem hl)]
    simp [extractLast, hget, Py.popright]
  unfold extract
  cases auto with
  | false => simpa using hlast
  | true =>
    obtain ⟨r, hr⟩ := hloop (List.range p.elems.length) [] (by intro j hj; simp at hj; omega)
    have : processToStage B (fuel + 1) p (-1) .on = (p, .ok r) := by
      unfold processToStage
      simp only [show ¬ (0 : Int) ≤ -1 by omega, if_false]
      rw [hs, show ((p.elems.length + 1 : Nat) : Int) + -1 = (p.elems.length : Int) by omega]
      rw [Int.toNat_natCast]
      exact hr
    simp [this, hlast]

/-- An element kind computing `10 * d + id` at once. -/
def quickBeh : Beh Unit Nat Unit where
  accepts _ _ := true
  process e d := (e.st, [], .value (10 * d + e.id))
  interact e _ := (e.st, [], .none)
  deliver _ e := (e.st, true)

theorem quickBeh_completes : Completes quickBeh (fun i d => 10 * d + i) := fun _ _ => ⟨rfl, rfl⟩

example : (extract quickBeh 9 ⟨[⟨1, 0, ()⟩, ⟨2, 0, ()⟩], [0, 5], [[.data 4, .data 3], [.data 2], [.data 1]]⟩
    true true).2 = .ok [.data 1, .data 22, .data 312, .data 412] := by decide

end Verif.Pipeline
