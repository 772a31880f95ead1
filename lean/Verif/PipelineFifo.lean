import Verif.PipelineSpec
import Verif.PipelineLemmas

/-! Helper lemmas for C01/C09: the pending data are invariant under stage runs. -/

namespace Verif.Pipeline

open Verif

variable {S D M : Type}

theorem dataOf_append (a b : List (Item D M)) : dataOf (a ++ b) = dataOf a ++ dataOf b := by
  induction a with
  | nil => rfl
  | cons x a ih => cases x <;> simp [dataOf, ih]

@[simp] theorem dataOf_map_data (a : List D) : dataOf (a.map (Item.data : D → Item D M)) = a := by
  induction a with
  | nil => rfl
  | cons x a ih => simp [dataOf, ih]

/-- Replacing a queue by one with the same data changes nothing. -/
theorem pending_modify_same (fn : Nat → D → D) (k : Nat) (f : List (Item D M) → List (Item D M)) :
    ∀ (is : List Nat) (qs : List (List (Item D M))),
      (∀ q, qs[k]? = some q → dataOf (f q).reverse = dataOf q.reverse) →
      pending fn is (qs.modify k f) = pending fn is qs := by
  induction k with
  | zero =>
    intro is qs h
    cases qs with
    | nil => rfl
    | cons q qs => simp [pending, h q (by simp)]
  | succ k ih =>
    intro is qs h
    cases qs with
    | nil => rfl
    | cons q qs =>
      simp only [List.modify_succ_cons, pending]
      rw [ih _ _ (fun q hq => h q (by simpa using hq))]

/-- Moving the oldest datum of queue `k` to the back of queue `k+1`, processed. -/
theorem pending_move (fn : Nat → D → D) (d : D) (k : Nat) :
    ∀ (is : List Nat) (qs : List (List (Item D M))) (q' : List (Item D M)) (i : Nat),
      qs[k]? = some (q' ++ [.data d]) → is[k]? = some i → k + 1 < qs.length →
      pending fn is ((qs.modify k (fun _ => q')).modify (k + 1) (Py.appendleft (.data (fn i d)))) =
        pending fn is qs := by
  induction k with
  | zero =>
    intro is qs q' i hq hi hl
    match qs, is with
    | q0 :: q1 :: rest, j :: js =>
      simp at hq hi
      subst hq hi
      simp [pending, Py.appendleft, dataOf_append, dataOf, through]
    | [_], _ => simp at hl
    | [], _ => simp at hl
    | _, [] => simp at hi
  | succ k ih =>
    intro is qs q' i hq hi hl
    match qs, is with
    | q0 :: rest, j :: js =>
      simp only [List.modify_succ_cons, pending]
      rw [List.tail_cons, ih js rest q' i (by simpa using hq) (by simpa using hi) (by simpa using hl)]
    | [], _ => simp at hl
    | _, [] => simp at hi

/-- Appending at the back of the first queue. -/
theorem pending_feed (fn : Nat → D → D) (x : Item D M) (is : List Nat) (qs : List (List (Item D M)))
    (h : qs ≠ []) :
    pending fn is (qs.modify 0 (Py.appendleft x)) =
      pending fn is qs ++ (dataOf [x]).map (through fn is) := by
  cases qs with
  | nil => simp at h
  | cons q qs => simp [pending, Py.appendleft, dataOf_append]

/-- Splitting off the output queue. -/
theorem pending_concat (fn : Nat → D → D) (q : List (Item D M)) :
    ∀ (qs : List (List (Item D M))) (is : List Nat),
      pending fn is (qs ++ [q]) =
        (dataOf q.reverse).map (through fn (is.drop qs.length)) ++ pending fn is qs := by
  intro qs
  induction qs with
  | nil => intro is; simp [pending]
  | cons q0 qs ih =>
    intro is
    cases is <;> simp [pending, ih]

theorem ids_setSt (p : Pipe S D M) (k : Nat) (s : S) : ids (setSt p k s) = ids p := by
  simp only [ids, setSt, Py.update_nat]
  apply List.ext_getElem?
  intro i
  simp [List.getElem?_modify]
  split <;> cases p.elems[i]? <;> simp

/-- The state of a pipeline the invariant is about. -/
structure Good (fn : Nat → D → D) (is : List Nat) (pend : List D) (p : Pipe S D M) : Prop where
  shape : Shape p
  ids : ids p = is
  pend : pending fn is p.queues = pend

theorem good_setSt {fn : Nat → D → D} {is pend} {p : Pipe S D M} (k : Nat) (s : S)
    (h : Good fn is pend p) : Good fn is pend (setSt p k s) :=
  ⟨shape_setSt _ _ h.shape, by rw [ids_setSt, h.ids], h.pend⟩

theorem good_cycles {fn : Nat → D → D} {is pend} {p : Pipe S D M} (k : Int) (f)
    (h : Good fn is pend p) : Good fn is pend { p with cycles := Py.update p.cycles k f } :=
  ⟨shape_cycles _ _ h.shape, h.ids, h.pend⟩

theorem modify_modify {α : Type _} (l : List α) (k : Nat) (f g : α → α) :
    (l.modify k f).modify k g = l.modify k (g ∘ f) := by
  apply List.ext_getElem?
  intro i
  simp only [List.getElem?_modify]
  split <;> cases l[i]? <;> simp

theorem modify_const_id {α : Type _} (l : List α) (k : Nat) (x : α) (f : α → α) (h : l[k]? = some x)
    (hf : f x = x) : l.modify k f = l := by
  apply List.ext_getElem?
  intro i
  simp only [List.getElem?_modify]
  split
  · rename_i e; subst e; simp [h, hf]
  · simp

theorem modify_concat {α : Type _} (l : List α) (x : α) (f : α → α) :
    (l ++ [x]).modify l.length f = l ++ [f x] := by
  induction l with
  | nil => rfl
  | cons a l ih => simp [ih]

/-- Normal form of a data attempt with an ordinary stage number, for a faithful behaviour. -/
theorem good_stageData {B : Beh S D M} {fn : Nat → D → D} (hB : Faithful B fn) {is pend}
    {p : Pipe S D M} (k : Nat) (e : Elem S) (d : D) (q' : List (Item D M))
    (h : Good fn is pend p) (he : p.elems[k]? = some e) (hq : p.queues[k]? = some (q' ++ [.data d])) :
    Good fn is pend (stageData B { p with queues := Py.update p.queues k (fun _ => q') } k e d).1 := by
  have hk : k + 1 < p.queues.length := by
    have := (List.getElem?_eq_some_iff.mp he).1
    rw [h.shape.2]; omega
  have hid : is[k]? = some e.id := by rw [← h.ids]; simp [Verif.Pipeline.ids, he]
  have hshape := shape_stageData B { p with queues := Py.update p.queues k (fun _ => q') } k e d
    (shape_queues _ _ h.shape)
  obtain ⟨hacc, hp⟩ := hB e d
  refine ⟨hshape, ?_, ?_⟩
  · unfold stageData
    dsimp only
    rw [if_pos hacc]
    have hs : ∀ (s : S) (c : List Nat) (qq : List (List (Item D M))),
      Verif.Pipeline.ids ({ elems := (setSt p k s).elems, cycles := c, queues := qq } : Pipe S D M) = is :=
      fun s c qq => by
        have := ids_setSt p k s
        rw [h.ids] at this
        exact this
    have hs2 : ∀ (s s2 : S) (c : List Nat) (qq : List (List (Item D M))),
      Verif.Pipeline.ids ({ elems := (setSt (setSt p k s) k s2).elems, cycles := c, queues := qq } : Pipe S D M) = is :=
      fun s s2 c qq => by
        have := ids_setSt (setSt p k s) k s2
        rw [ids_setSt p k s, h.ids] at this
        exact this
    split
    · exact hs _ _ _
    · exact hs _ _ _
    · split <;> exact hs2 _ _ _ _
  · unfold stageData
    rw [if_pos hacc]
    have hmove := pending_move fn d k is p.queues q' e.id hq hid hk
    rw [h.pend] at hmove
    have hback : ∀ f : List (Item D M) → List (Item D M), f q' = q' ++ [.data d] →
        pending fn is ((p.queues.modify k (fun _ => q')).modify k f) = pend := by
      intro f hf
      rw [modify_modify, modify_const_id _ _ _ _ hq, h.pend]
      simpa using hf
    rcases hpr : B.process e d with ⟨s1, r1, o1⟩
    rw [hpr] at hp
    cases o1 with
    | value y =>
      obtain ⟨rfl, rfl⟩ := hp
      simp only [hpr, enqueue, resave, setSt, Py.update_nat, Py.update_succ, List.map_nil,
        List.append_nil]
      rw [modify_modify, show ((fun q : List (Item D M) => q) ∘ fun _ => q') = (fun _ => q') from rfl]
      exact hmove
    | raise =>
      simp only at hp
      subst hp
      simp only [hpr, resave, setSt, Py.update_nat, List.map_nil, List.append_nil]
      rw [modify_modify]
      exact hback _ rfl
    | none =>
      simp only at hp
      rcases hin : B.interact { e with st := s1 } d with ⟨s2, r2, o2⟩
      rw [hin] at hp
      cases o2 with
      | value y =>
        obtain ⟨hr, rfl⟩ := hp
        obtain ⟨rfl, rfl⟩ := List.append_eq_nil_iff.mp hr
        simp only [hpr, hin, enqueue, resave, setSt, Py.update_nat, Py.update_succ, List.map_nil,
          List.append_nil]
        rw [modify_modify, modify_modify]
        exact hmove
      | raise =>
        simp only at hp
        obtain ⟨rfl, rfl⟩ := List.append_eq_nil_iff.mp hp
        simp only [hpr, hin, resave, setSt, Py.update_nat, List.map_nil, List.append_nil]
        rw [modify_modify, modify_modify]
        exact hback _ rfl
      | none =>
        simp only at hp
        simp only [hpr, hin, resave, setSt, Py.update_nat]
        rw [modify_modify (p.queues.modify k _)]
        apply hback
        simp [← List.map_append, hp]

theorem good_stageMsg {B : Beh S D M} {fn : Nat → D → D} {is pend}
    {p : Pipe S D M} (k : Nat) (e : Elem S) (m : Msg M)
    (h : Good fn is pend p) :
    Good fn is pend (stageMsg B p k e m).1 := by
  have hpass : ∀ (p : Pipe S D M) (m : Msg M) (b : Bool), Good fn is pend p → Good fn is pend
      (if (k : Int) = (p.elems.length : Int) - 1 then
        if m.nprocessed = 0 then (p, Except.error Exc.pipelineError)
        else (p, Except.ok (StageRet.message b true))
      else (enqueue p (k + 1) (.msg m), Except.ok (StageRet.message b true))).1 := by
    intro p m b h
    split
    · split <;> exact h
    · refine ⟨shape_enqueue _ _ h.shape, h.ids, ?_⟩
      simp only [enqueue, Py.update_succ]
      rw [pending_modify_same, h.pend]
      intro q _
      simp [Py.appendleft, dataOf_append, dataOf]
  unfold stageMsg
  dsimp only
  split
  · exact hpass _ _ _ h
  · split
    · split
      · exact hpass _ _ _ (good_setSt _ _ h)
      · exact good_setSt _ _ h
    · exact good_setSt _ _ h

theorem good_processStage {B : Beh S D M} {fn : Nat → D → D} (hB : Faithful B fn) {is pend}
    (p : Pipe S D M) (k : Nat) (h : Good fn is pend p) :
    Good fn is pend (processStage B p k).1 := by
  unfold processStage
  simp only [Py.get?_nat]
  split
  · exact h
  · rename_i e he
    split
    · exact h
    · rename_i x q' hq
      rcases hq' : p.queues[k]? with _ | q
      · simp [hq'] at hq
      · simp only [hq', Option.bind_some] at hq
        have := Py.popright_some hq
        subst this
        split
        · apply good_stageMsg
          refine ⟨shape_queues _ _ h.shape, h.ids, ?_⟩
          simp only [Py.update_nat]
          rw [pending_modify_same, h.pend]
          intro q hq2
          rw [hq'] at hq2
          simp at hq2
          subst hq2
          simp [dataOf]
        · exact good_stageData hB k e _ q' h he hq'

theorem feedMany_good {fn : Nat → D → D} {is} (xs : List (Item D M)) :
    ∀ {p : Pipe S D M} {pend}, Good fn is pend p →
      Good fn is (pend ++ (dataOf xs).map (through fn is)) (feedMany p xs) := by
  induction xs with
  | nil => intro p pend h; simpa [feedMany, dataOf] using h
  | cons x xs ih =>
    intro p pend h
    have h1 : Good fn is (pend ++ (dataOf [x]).map (through fn is)) (feed p x) := by
      refine ⟨shape_feed x h.shape, h.ids, ?_⟩
      simp only [feed, Py.update_zero]
      rw [pending_feed, h.pend]
      intro h0
      have := h.shape.2
      simp [h0] at this
    have h2 := ih h1
    have : dataOf (x :: xs) = dataOf [x] ++ dataOf xs := dataOf_append [x] xs
    rw [this]
    simpa [feedMany] using h2

theorem feed_good {fn : Nat → D → D} {is} (x : Item D M)
    {p : Pipe S D M} {pend} (h : Good fn is pend p) :
      Good fn is (pend ++ (dataOf [x]).map (through fn is)) (feed p x) :=
  feedMany_good [x] h

theorem pending_last (fn : Nat → D → D) {p : Pipe S D M} (hs : Shape p) (q : List (Item D M))
    (h : p.queues.getLast? = some q) :
    pending fn (ids p) p.queues = dataOf q.reverse ++ pending fn (ids p) p.queues.dropLast := by
  rcases List.eq_nil_or_concat p.queues with h0 | ⟨l, y, h0⟩
  · simp [h0] at h
  · simp [h0] at h
    subst h
    have hl : l.length = (ids p).length := by
      have := hs.2; rw [h0] at this; simp at this; simp [ids, this]
    rw [h0, List.concat_eq_append, pending_concat]
    simp [hl]
    congr
    exact List.map_id _

/-- `extract` hands out the oldest finished data. -/
theorem extractLast_good {fn : Nat → D → D} {is pend} {p : Pipe S D M} (all : Bool)
    (h : Good fn is pend p) :
    match extractLast p all with
    | (p', .ok xs) => ∃ pend', pend = dataOf xs ++ pend' ∧ Good fn is pend' p'
    | (p', .error _) => p' = p := by
  have hlen : p.queues.length = p.elems.length + 1 := h.shape.2
  have hidx : Py.idx p.queues.length (-1) = some p.elems.length := by
    rw [hlen]; exact Py.idx_neg_one _
  rcases List.eq_nil_or_concat p.queues with h0 | ⟨l, q, h0⟩
  · simp [h0] at hlen
  have hl : l.length = p.elems.length := by rw [h0] at hlen; simpa using hlen
  have hget : Py.get? p.queues (-1) = some q := by
    rw [Py.get?_eq hidx, h0]; simp [hl]
  have hupd : ∀ q', Py.update p.queues (-1) (fun _ => q') = l ++ [q'] := by
    intro q'
    rw [Py.update_eq hidx, h0, ← hl]
    rw [List.concat_eq_append, modify_concat]
  have hids : is.length = l.length := by rw [← h.ids, hl]; simp [ids]
  have hpend : ∀ q', pending fn is (l ++ [q']) = dataOf q'.reverse ++ pending fn is l := by
    intro q'
    rw [pending_concat]
    simp [← hids]
    congr
    exact List.map_id _
  have hp0 : pend = dataOf q.reverse ++ pending fn is l := by
    rw [← hpend, ← h.pend, h0, List.concat_eq_append]
  unfold extractLast
  rw [hget]
  dsimp only
  by_cases hc : all = true ∧ q.length ≠ 0
  · simp only [if_pos hc]
    refine ⟨pending fn is l, hp0, shape_queues _ _ h.shape, h.ids, ?_⟩
    simp only [hupd, hpend]
    simp [dataOf]
  · simp only [if_neg hc]
    cases hpop : Py.popright q with
    | none => simp
    | some xq =>
      obtain ⟨x, q'⟩ := xq
      have := Py.popright_some hpop
      subst this
      refine ⟨dataOf q'.reverse ++ pending fn is l, ?_, shape_queues _ _ h.shape, h.ids, ?_⟩
      · rw [hp0]
        simp only [List.reverse_append, List.reverse_singleton]
        rw [dataOf_append]; simp
      · simp only [hupd, hpend]

/-! ## Draining a pipeline whose elements complete at once -/

/-- Every queued item is a datum. -/
def AllData (p : Pipe S D M) : Prop := ∀ q ∈ p.queues, ∀ x ∈ q, ∃ d, x = Item.data d

theorem Completes.faithful {B : Beh S D M} {fn : Nat → D → D} (h : Completes B fn) :
    Faithful B fn := by
  intro e d
  obtain ⟨h1, h2⟩ := h e d
  refine ⟨h1, ?_⟩
  rw [h2]
  simp

theorem processStage_completes {B : Beh S D M} {fn : Nat → D → D} (hB : Completes B fn)
    (p : Pipe S D M) (k : Nat) (e : Elem S) (d : D) (q' : List (Item D M))
    (he : p.elems[k]? = some e) (hq : p.queues[k]? = some (q' ++ [.data d])) :
    processStage B p k =
      ({ elems := p.elems
         cycles := p.cycles.modify k (fun _ => 0)
         queues := (p.queues.modify k (fun _ => q')).modify (k + 1)
            (Py.appendleft (.data (fn e.id d))) }, .ok .complete) := by
  obtain ⟨h1, h2⟩ := hB e d
  unfold processStage
  simp only [Py.get?_nat, he, hq, Option.bind_some, Py.popright_append, stageData, h1, if_true, h2,
    enqueue, resave, setSt, Py.update_nat, Py.update_succ, List.map_nil, List.append_nil]
  rw [modify_const_id p.elems k e _ he rfl]
  congr 3
  rw [modify_modify]
  rfl

theorem allData_move (p : Pipe S D M) (k : Nat) (d y : D) (q' : List (Item D M))
    (hq : p.queues[k]? = some (q' ++ [.data d])) (h : AllData p) (es cs) :
    AllData (S := S) ⟨es, cs, (p.queues.modify k (fun _ => q')).modify (k + 1)
            (Py.appendleft (.data y))⟩ := by
  intro q hqm x hx
  obtain ⟨j, hj, rfl⟩ := List.getElem_of_mem hqm
  have hmem := List.mem_of_getElem? hq
  have hq'mem : ∀ x ∈ q', ∃ d, x = Item.data d := fun x hx => h _ hmem x (by simp [hx])
  have hqj : ∀ x, x ∈ (p.queues.modify k (fun _ => q'))[j]'(by simpa using hj) → ∃ d, x = Item.data d := by
    intro x hx
    rw [List.getElem_modify] at hx
    split at hx
    · exact hq'mem x hx
    · exact h _ (List.getElem_mem _) x hx
  simp only [List.getElem_modify _ (k+1)] at hx
  split at hx
  · simp [Py.appendleft] at hx
    rcases hx with rfl | hx
    · exact ⟨_, rfl⟩
    · exact hqj x hx
  · exact hqj x hx

theorem retryLoop_zero (B : Beh S D M) (hit) (fuel : Nat) (p : Pipe S D M) (k : Nat) (acc)
    (h : cyc p k = 0) : retryLoop B hit (fuel + 1) p k acc = (p, .ok acc) := by
  unfold retryLoop; simp [h]

/-- Draining one stage. -/
theorem drainLoop_completes {B : Beh S D M} {fn : Nat → D → D} (hB : Completes B fn) (rep : Repeat)
    (k : Nat) (acc : List StageRet) : ∀ (fuel : Nat) (p : Pipe S D M) (q : List (Item D M)) {is pend},
      Good fn is pend p → AllData p → k < p.elems.length → p.queues[k]? = some q → q.length + 1 < fuel →
      ∃ p', drainLoop B rep fuel p k acc = (p', .ok acc) ∧ Good fn is pend p' ∧ AllData p' ∧
        p'.queues[k]? = some [] ∧ p'.elems = p.elems ∧ ∀ j < k, p'.queues[j]? = p.queues[j]? := by
  intro fuel
  induction fuel with
  | zero => intro p q is pend _ _ _ _ h; simp at h
  | succ fuel ih =>
    intro p q is pend hg ha hk hq hf
    unfold drainLoop
    rw [hq]
    by_cases h0 : q.length = 0
    · have : q = [] := List.length_eq_zero_iff.mp h0
      subst this
      exact ⟨p, by simp, hg, ha, hq, rfl, fun _ _ => rfl⟩
    · rcases List.eq_nil_or_concat q with h1 | ⟨q', x, h1⟩
      · simp [h1] at h0
      rw [List.concat_eq_append] at h1
      subst h1
      obtain ⟨d, rfl⟩ := ha _ (List.mem_of_getElem? hq) x (by simp)
      have he : p.elems[k]? = some p.elems[k] := List.getElem?_eq_getElem hk
      have hps := processStage_completes hB p k _ d q' he hq
      have hg' := good_processStage hB.faithful p k hg
      rw [hps] at hg'
      have ha' := allData_move p k d (fn p.elems[k].id d) q' hq ha p.elems
        (p.cycles.modify k (fun _ => 0))
      simp only [Option.getD_some, h0, if_false, hps]
      have hfu : ∃ f', fuel = f' + 1 := ⟨fuel - 1, by simp at hf; omega⟩
      obtain ⟨f', rfl⟩ := hfu
      have hcyc : cyc (⟨p.elems, p.cycles.modify k (fun _ => 0),
          (p.queues.modify k (fun _ => q')).modify (k + 1)
            (Py.appendleft (.data (fn p.elems[k].id d)))⟩ : Pipe S D M) k = 0 := by
        simp only [cyc, List.getElem?_modify]
        cases p.cycles[k]? <;> simp
      rw [retryLoop_zero _ _ _ _ _ _ hcyc]
      dsimp only
      have hqk : ((p.queues.modify k (fun _ => q')).modify (k + 1)
            (Py.appendleft (.data (fn p.elems[k].id d))))[k]? = some q' := by
        rw [Py.getElem?_mod_ne _ _ _ _ (by omega), Py.getElem?_mod_eq, hq]; rfl
      obtain ⟨p', e1, e2, e3, e4, e5, e6⟩ := ih _ q' hg' ha' (by simpa using hk) hqk (by simp at hf; omega)
      refine ⟨p', e1, e2, e3, e4, e5, ?_⟩
      intro j hj
      rw [e6 j hj]
      simp only
      rw [Py.getElem?_mod_ne _ _ _ _ (by omega), Py.getElem?_mod_ne _ _ _ _ (by omega)]

theorem length_pending (fn : Nat → D → D) :
    ∀ (qs : List (List (Item D M))) (is : List Nat) (k : Nat) (q : List (Item D M)), (∀ q ∈ qs, ∀ x ∈ q, ∃ d, x = Item.data d) →
      qs[k]? = some q → q.length ≤ (pending fn is qs).length := by
  have hlen : ∀ q : List (Item D M), (∀ x ∈ q, ∃ d, x = Item.data d) → (dataOf q).length = q.length := by
    intro q h
    induction q with
    | nil => rfl
    | cons x q ih =>
      obtain ⟨d, rfl⟩ := h x (by simp)
      simp [dataOf, ih (fun x hx => h x (by simp [hx]))]
  intro qs
  induction qs with
  | nil => intro is k q _ h; simp at h
  | cons q0 qs ih =>
    intro is k q ha h
    cases k with
    | zero =>
      simp at h
      subst h
      simp only [pending, List.length_append, List.length_map]
      rw [hlen _ (fun x hx => ha q0 (by simp) x (by simpa using hx))]
      simp
    | succ k =>
      have := ih is.tail k q (fun q hq => ha q (by simp [hq])) (by simpa using h)
      simp [pending]; omega

theorem stagesLoop_completes {B : Beh S D M} {fn : Nat → D → D} (hB : Completes B fn)
    (fuel : Nat) {is pend} (hf : pend.length + 1 < fuel) :
    ∀ (m k : Nat) (p : Pipe S D M) (acc), k + m ≤ p.elems.length →
      Good fn is pend p → AllData p → (∀ j < k, p.queues[j]? = some []) →
      ∃ p' r, stagesLoop B .on fuel p (List.range' k m) acc = (p', .ok r) ∧ Good fn is pend p' ∧
        AllData p' ∧ p'.elems = p.elems ∧ (∀ j < k + m, p'.queues[j]? = some []) := by
  intro m
  induction m with
  | zero => intro k p acc _ hg ha hj; exact ⟨p, acc, by simp [stagesLoop], hg, ha, rfl, by simpa using hj⟩
  | succ m ih =>
    intro k p acc hk hg ha hj
    have hkl : k < p.queues.length := by have := hg.shape.2; omega
    have hq : p.queues[k]? = some p.queues[k] := List.getElem?_eq_getElem hkl
    have hl := length_pending fn p.queues is k _ ha hq
    rw [hg.pend] at hl
    obtain ⟨p', e1, e2, e3, e4, e5, e6⟩ :=
      drainLoop_completes hB .on k [] fuel p _ hg ha (by omega) hq (by omega)
    have hso : stageOnce B .on fuel p k = (p', .ok []) := by
      unfold stageOnce
      simp only [hq]
      exact e1
    rw [List.range'_succ]
    simp only [stagesLoop, hso]
    obtain ⟨p'', r, f1, f2, f3, f4, f5⟩ := ih (k + 1) p' (acc ++ [[]]) (by rw [e5]; omega) e2 e3 (by
      intro j hj'
      by_cases h : j = k
      · subst h; exact e4
      · rw [e6 j (by omega)]; exact hj j (by omega))
    exact ⟨p'', r, f1, f2, f3, by rw [f4, e5], fun j hj => f5 j (by omega)⟩

end Verif.Pipeline
