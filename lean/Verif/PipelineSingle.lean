import Verif.PipelineStage
import Verif.PipelineProps

/-! Helper lemmas for `processSingle` and the processing limit (C07, C08). -/

namespace Verif.Pipeline

open Verif

variable {S D M : Type}

/-- State while `processSingle` works on stage `k`: the datum `v` is in front of queue `k`, all other
queues hold what they held originally (`base`). -/
structure At (base : List (List (Item D M))) (is : List Nat) (k : Nat) (v : D) (p : Pipe S D M) : Prop where
  shape : Shape p
  ids : ids p = is
  q : ∃ b, base[k]? = some b ∧ p.queues = base.modify k (fun _ => b ++ [.data v])

theorem shape_of_processStage {B : Beh S D M} {p p' : Pipe S D M} {k : Int} {r}
    (h : processStage B p k = (p', r)) (hs : Shape p) : Shape p' := by
  have := shape_processStage B p k hs
  rw [h] at this; exact this

theorem attempt_faithful {B : Beh S D M} {fn : Nat → D → D} (hB : Faithful B fn) (e : Elem S) (d : D) :
    match attempt B e d with
    | (_, r, .value y) => r = [] ∧ y = fn e.id d
    | (_, r, .raise) => r = []
    | (_, r, .none) => r = [d] := by
  obtain ⟨_, h⟩ := hB e d
  unfold attempt
  rcases hpr : B.process e d with ⟨s, r, o⟩
  rw [hpr] at h
  cases o with
  | value y => exact h
  | raise => exact h
  | none =>
    simp only at h
    rcases hin : B.interact { e with st := s } d with ⟨s', r', o'⟩
    rw [hin] at h
    cases o' <;> simp only [hin] <;> exact h

theorem ids_modify (p : Pipe S D M) (k : Nat) (s : S) (cs qs) :
    ids (⟨p.elems.modify k (fun e => { e with st := s }), cs, qs⟩ : Pipe S D M) = ids p := by
  have := ids_setSt p k s
  simpa [setSt, ids] using this

theorem modify_comm_ne {α : Type} (l : List α) (i j : Nat) (f g : α → α) (h : i ≠ j) :
    (l.modify i f).modify j g = (l.modify j g).modify i f := by
  apply List.ext_getElem?
  intro n
  simp only [List.getElem?_modify]
  by_cases h1 : i = n
  · subst h1
    have : ¬ j = i := fun h' => h h'.symm
    simp [this]
  · by_cases h2 : j = n <;> simp [h1, h2]

/-- One stage run from `At`. -/
theorem at_stage {B : Beh S D M} {fn : Nat → D → D} (hB : Faithful B fn)
    {base : List (List (Item D M))} {is : List Nat} {k i : Nat} {v : D} {p : Pipe S D M}
    (h : At base is k v p) (hi : is[k]? = some i) (hnext : base[k + 1]? = some []) :
    match processStage B p k with
    | (p', .ok .complete) => At base is (k + 1) (fn i v) p' ∧ cyc p' k = 0
    | (p', .ok .incomplete) => At base is k v p' ∧ cyc p' k = cyc p k + 1
    | (_, .ok (.message _ _)) => False
    | (_, .error _) => True := by
  obtain ⟨hs, hids, b, hb, hq⟩ := h
  rw [← hids] at hi
  simp only [Verif.Pipeline.ids, List.getElem?_map, Option.map_eq_some_iff] at hi
  obtain ⟨e, he, rfl⟩ := hi
  have hqk : p.queues[k]? = some (b ++ [.data v]) := by rw [hq]; simp [hb]
  have hkl : k < p.elems.length := (List.getElem?_eq_some_iff.mp he).1
  have hcl : k < p.cycles.length := by rw [hs.1]; exact hkl
  obtain ⟨hacc, _⟩ := hB e v
  have hatt := attempt_faithful hB e v
  have hps := processStage_data B p k e v b he hqk hacc
  have hss := fun {p' r} (h : processStage B p k = (p', r)) => shape_of_processStage h hs
  rcases hat : attempt B e v with ⟨s, r, o⟩
  rw [hat] at hps hatt
  cases o with
  | value y =>
    obtain ⟨rfl, rfl⟩ := hatt
    rw [hps]
    refine ⟨⟨hss hps, by rw [← hids]; exact ids_modify p k s _ _, [], hnext, ?_⟩, ?_⟩
    · simp only [List.map_nil, List.append_nil, hq, modify_modify]
      have : base.modify k ((fun _ => b) ∘ fun _ => b ++ [.data v]) = base :=
        modify_const_id _ _ _ _ hb rfl
      rw [this]
      apply List.ext_getElem?
      intro n
      simp only [List.getElem?_modify]
      split
      · rename_i h; subst h; simp [hnext, Py.appendleft]
      · rfl
    · simp [cyc, hcl]
  | raise => rw [hps]; trivial
  | none =>
    have : r = [v] := hatt
    subst this
    rw [hps]
    refine ⟨⟨hss hps, by rw [← hids]; exact ids_modify p k s _ _, b, hb, ?_⟩, ?_⟩
    · simp only [hq, modify_modify]
      rfl
    · simp [cyc, hcl]

theorem at_retry {B : Beh S D M} {fn : Nat → D → D} (hB : Faithful B fn)
    {base : List (List (Item D M))} {is : List Nat} {k i : Nat} {v : D}
    (hi : is[k]? = some i) (hnext : base[k + 1]? = some []) (limit : Nat) (rf : Bool) (pre : Item D M) :
    ∀ (fuel : Nat) (p p' : Pipe S D M),
      (cyc p k = 0 ∧ At base is (k + 1) (fn i v) p ∨ cyc p k ≠ 0 ∧ At base is k v p) →
      singleRetry B limit rf pre fuel p k = (p', .ok ()) → At base is (k + 1) (fn i v) p' := by
  intro fuel
  induction fuel with
  | zero => intro p p' _ h; simp [singleRetry] at h
  | succ fuel ih =>
    intro p p' hc h
    unfold singleRetry at h
    rcases hc with ⟨hc, ha⟩ | ⟨hc, ha⟩
    · simp only [hc, if_true, Prod.mk.injEq] at h
      rw [← h.1]; exact ha
    · simp only [hc, if_false] at h
      split at h
      · simp at h
      · have hst := at_stage hB ha hi hnext
        rcases hps : processStage B p k with ⟨p1, r1⟩
        rw [hps] at h hst
        cases r1 with
        | error x => simp at h
        | ok r1 =>
          simp only at h
          cases r1 with
          | complete => exact ih _ _ (Or.inl ⟨hst.2, hst.1⟩) h
          | incomplete => exact ih _ _ (Or.inr ⟨by rw [hst.2]; omega, hst.1⟩) h
          | message a b => exact absurd hst id

theorem at_loop {B : Beh S D M} {fn : Nat → D → D} (hB : Faithful B fn)
    {base : List (List (Item D M))} {is : List Nat} (fuel limit : Nat) (rf : Bool)
    (hnext : ∀ j, 0 < j → j ≤ is.length → base[j]? = some []) :
    ∀ (m k : Nat) (v : D) (p p' : Pipe S D M), k + m = is.length → At base is k v p →
      singleLoop B fuel limit rf p (List.range' k m) = (p', .ok ()) →
      At base is is.length (through fn (is.drop k) v) p' := by
  intro m
  induction m with
  | zero =>
    intro k v p p' hk ha h
    simp [singleLoop] at h
    subst h
    simp at hk
    subst hk
    simpa [through] using ha
  | succ m ih =>
    intro k v p p' hk ha h
    have hkl : k < is.length := by omega
    have hi : is[k]? = some is[k] := List.getElem?_eq_getElem hkl
    rw [List.range'_succ] at h
    unfold singleLoop at h
    cases hpre : ((p.queues[k]?).getD []).getLast? with
    | none => simp [hpre] at h
    | some pre =>
      simp only [hpre] at h
      have hst := at_stage hB ha hi (hnext (k + 1) (by omega) (by omega))
      rcases hps : processStage B p k with ⟨p1, r1⟩
      rw [hps] at h hst
      cases r1 with
      | error x => simp at h
      | ok r1 =>
        simp only at h
        have hdisj : cyc p1 k = 0 ∧ At base is (k + 1) (fn is[k] v) p1 ∨ cyc p1 k ≠ 0 ∧ At base is k v p1 := by
          cases r1 with
          | complete => exact Or.inl ⟨hst.2, hst.1⟩
          | incomplete => exact Or.inr ⟨by rw [hst.2]; omega, hst.1⟩
          | message a b => exact absurd hst id
        rcases hrt : singleRetry B limit rf pre fuel p1 k with ⟨p2, r2⟩
        rw [hrt] at h
        cases r2 with
        | error x => simp at h
        | ok r2 =>
          have h2 := at_retry hB hi (hnext (k + 1) (by omega) (by omega)) limit rf pre fuel p1 p2 hdisj hrt
          have h3 := ih (k + 1) (fn is[k] v) p2 p' (by omega) h2 h
          rw [List.drop_eq_getElem_cons hkl]
          exact h3

/-! ## Attempt counting -/

/-- The instrumented number of attempts of the element at stage `k`. -/
def attAt (att : S → Nat) (p : Pipe S D M) (k : Nat) : Nat := ((p.elems[k]?).map (fun e => att e.st)).getD 0

/-- `att` counts the calls of `plProcess`. -/
def Counts (B : Beh S D M) (att : S → Nat) : Prop :=
  (∀ e d, att (B.process e d).1 = att e.st + 1) ∧ (∀ e d, att (B.interact e d).1 = att e.st) ∧
  (∀ m e, att (B.deliver m e).1 = att e.st)

theorem attempt_counts {B : Beh S D M} {att : S → Nat} (h : Counts B att) (e : Elem S) (d : D) :
    att (attempt B e d).1 = att e.st + 1 := by
  unfold attempt
  have h1 := h.1 e d
  rcases hpr : B.process e d with ⟨s, r, o⟩
  rw [hpr] at h1
  cases o with
  | value y => exact h1
  | raise => exact h1
  | none =>
    have h2 := h.2.1 { e with st := s } d
    rcases hin : B.interact { e with st := s } d with ⟨s', r', o'⟩
    rw [hin] at h2
    simp only [hin] at *
    rw [h2, h1]

theorem attAt_modify (att : S → Nat) (p : Pipe S D M) (k j : Nat) (s : S) (cs qs) (e : Elem S)
    (he : p.elems[k]? = some e) :
    attAt att (⟨p.elems.modify k (fun e => { e with st := s }), cs, qs⟩ : Pipe S D M) j
      = if j = k then att s else attAt att p j := by
  unfold attAt
  by_cases h : j = k
  · subst h; simp [he]
  · rw [Py.getElem?_mod_ne _ _ _ _ (Ne.symm h)]; simp [h]

/-- Effect of the message branch on counters. -/
theorem stageMsg_counts {B : Beh S D M} {att : S → Nat} (h : Counts B att) (p : Pipe S D M) (k : Nat)
    (e : Elem S) (m : Msg M) (he : p.elems[k]? = some e) :
    (∀ j, attAt att (stageMsg B p k e m).1 j = attAt att p j) ∧ (stageMsg B p k e m).1.cycles = p.cycles ∧
      ∀ r, (stageMsg B p k e m).2 = .ok r → ∃ a b, r = .message a b := by
  have hset : ∀ j, attAt att (setSt p k (B.deliver m.payload e).1) j = attAt att p j := by
    intro j
    have := attAt_modify att p k j (B.deliver m.payload e).1 p.cycles p.queues e he
    simp only [setSt, Py.update_nat]
    rw [this]
    split
    · rename_i hj; subst hj; rw [h.2.2]; simp [attAt, he]
    · rfl
  unfold stageMsg
  dsimp only
  split
  · split
    · split <;> exact ⟨fun _ => rfl, rfl, by intro r hr; simp at hr <;> exact ⟨_, _, hr.symm⟩⟩
    · exact ⟨fun _ => rfl, rfl, by intro r hr; simp at hr; exact ⟨_, _, hr.symm⟩⟩
  · split
    · split
      · split
        · split <;> exact ⟨hset, rfl, by intro r hr; simp at hr <;> exact ⟨_, _, hr.symm⟩⟩
        · exact ⟨hset, rfl, by intro r hr; simp at hr; exact ⟨_, _, hr.symm⟩⟩
      · exact ⟨hset, rfl, by intro r hr; simp at hr; exact ⟨_, _, hr.symm⟩⟩
    · exact ⟨hset, rfl, by intro r hr; simp at hr⟩

/-- Effect of one stage run on attempts and retry counters. -/
theorem processStage_counts {B : Beh S D M} {att : S → Nat} (h : Counts B att) (p : Pipe S D M) (k : Nat)
    (hs : Shape p) :
    (∀ j ≠ k, attAt att (processStage B p k).1 j = attAt att p j) ∧
    (∀ j ≠ k, cyc (processStage B p k).1 j = cyc p j) ∧
    match processStage B p k with
    | (p', .ok .complete) => attAt att p' k = attAt att p k + 1 ∧ cyc p' k = 0
    | (p', .ok .incomplete) => attAt att p' k = attAt att p k + 1 ∧ cyc p' k = cyc p k + 1
    | (p', .ok (.message _ _)) => attAt att p' k = attAt att p k ∧ cyc p' k = cyc p k
    | (p', .error _) => attAt att p' k ≤ attAt att p k + 1 ∧ cyc p' k = cyc p k := by
  rcases stage_cases p k with h0 | h0 | ⟨e, q', d, he, hq⟩ | ⟨e, q', m, he, hq⟩
  · rw [processStage_noelem B p k h0]; simp
  · rw [processStage_empty B p k h0]; simp
  · have hkl : k < p.elems.length := (List.getElem?_eq_some_iff.mp he).1
    have hcl : k < p.cycles.length := by rw [hs.1]; exact hkl
    cases hacc : B.accepts e d with
    | false =>
      rw [processStage_reject B p k e d q' he hq hacc]
      exact ⟨fun _ _ => rfl, fun _ _ => rfl, Nat.le_succ _, rfl⟩
    | true =>
      rw [processStage_data B p k e d q' he hq hacc]
      have hc := attempt_counts h e d
      have hatt : attAt att p k = att e.st := by simp [attAt, he]
      rcases hat : attempt B e d with ⟨s, r, o⟩
      rw [hat] at hc
      simp only at hc
      cases o with
      | value y =>
        refine ⟨?_, ?_, ?_, ?_⟩
        · intro j hj; simp only; rw [attAt_modify att p k j s _ _ e he]; simp [hj]
        · intro j hj; simp [cyc, Py.getElem?_mod_ne _ _ _ _ (Ne.symm hj)]
        · rw [attAt_modify att p k k s _ _ e he]; simp [hc, hatt]
        · simp [cyc, hcl]
      | raise =>
        refine ⟨?_, ?_, ?_, ?_⟩
        · intro j hj; simp only; rw [attAt_modify att p k j s _ _ e he]; simp [hj]
        · intro j hj; rfl
        · rw [attAt_modify att p k k s _ _ e he]; simp [hc, hatt]
        · rfl
      | none =>
        refine ⟨?_, ?_, ?_, ?_⟩
        · intro j hj; simp only; rw [attAt_modify att p k j s _ _ e he]; simp [hj]
        · intro j hj; simp [cyc, Py.getElem?_mod_ne _ _ _ _ (Ne.symm hj)]
        · rw [attAt_modify att p k k s _ _ e he]; simp [hc, hatt]
        · simp [cyc, hcl]
  · rw [processStage_msg B p k e m q' he hq]
    have hm := stageMsg_counts h ({ p with queues := p.queues.modify k (fun _ => q') }) k e m he
    obtain ⟨h1, h2, h3⟩ := hm
    have hcyc : ∀ j, cyc (stageMsg B { p with queues := p.queues.modify k (fun _ => q') } k e m).1 j = cyc p j := by
      intro j; simp [cyc, h2]
    refine ⟨fun j _ => h1 j, fun j _ => hcyc j, ?_⟩
    rcases hst : stageMsg B { p with queues := p.queues.modify k (fun _ => q') } k e m with ⟨p', r⟩
    rw [hst] at h1 h3 hcyc
    cases r with
    | error x => exact ⟨Nat.le_succ_of_le (Nat.le_of_eq (h1 k)), hcyc k⟩
    | ok r =>
      obtain ⟨a, b, rfl⟩ := h3 r rfl
      exact ⟨h1 k, hcyc k⟩

theorem singleRetry_counts {B : Beh S D M} {att : S → Nat} (h : Counts B att) (L : Nat) (hL : 0 < L)
    (rf : Bool) (pre : Item D M) (k : Nat) : ∀ (fuel : Nat) (p : Pipe S D M), Shape p →
      Shape (singleRetry B L rf pre fuel p k).1 ∧
      (∀ j ≠ k, attAt att (singleRetry B L rf pre fuel p k).1 j = attAt att p j) ∧
      attAt att (singleRetry B L rf pre fuel p k).1 k ≤ attAt att p k + (if cyc p k = 0 then 0 else L - cyc p k) := by
  intro fuel
  induction fuel with
  | zero => intro p hs; exact ⟨hs, fun _ _ => rfl, by simp [singleRetry]⟩
  | succ fuel ih =>
    intro p hs
    unfold singleRetry
    by_cases hc : cyc p k = 0
    · simp only [hc, if_true]; exact ⟨hs, fun _ _ => by simp, by simp⟩
    · simp only [hc, if_false]
      by_cases hl : L ≠ 0 ∧ L ≤ cyc p k
      · simp only [if_pos hl]
        cases rf with
        | true => exact ⟨hs, fun _ _ => rfl, Nat.le_add_right _ _⟩
        | false => exact ⟨shape_queues _ _ hs, fun _ _ => rfl, Nat.le_add_right _ _⟩
      · simp only [if_neg hl]
        have hlt : cyc p k < L := by omega
        obtain ⟨g1, g2, g3⟩ := processStage_counts h p k hs
        rcases hps : processStage B p k with ⟨p1, r1⟩
        have hs1 := shape_of_processStage hps hs
        rw [hps] at g1 g2 g3
        cases r1 with
        | error x => exact ⟨hs1, g1, by simp only at g3 ⊢; omega⟩
        | ok r1 =>
          simp only
          obtain ⟨i1, i2, i3⟩ := ih p1 hs1
          refine ⟨i1, fun j hj => by rw [i2 j hj]; exact g1 j hj, ?_⟩
          cases r1 with
          | complete => simp only at g3; simp [g3.2] at i3; omega
          | incomplete => simp only at g3; simp [g3.2] at i3; omega
          | message a b =>
            simp only at g3
            rw [g3.1, g3.2] at i3
            simp [hc] at i3; exact i3

theorem singleLoop_counts {B : Beh S D M} {att : S → Nat} (h : Counts B att) (L : Nat) (hL : 0 < L)
    (rf : Bool) (fuel : Nat) : ∀ (sts : List Nat) (p : Pipe S D M), sts.Nodup → Shape p →
      (∀ j, attAt att (singleLoop B fuel L rf p sts).1 j ≤ attAt att p j + (if j ∈ sts then L else 0)) := by
  intro sts
  induction sts with
  | nil => intro p _ _ j; simp [singleLoop]
  | cons k sts ih =>
    intro p hn hs j
    have hk : k ∉ sts := (List.nodup_cons.mp hn).1
    unfold singleLoop
    cases hpre : ((p.queues[k]?).getD []).getLast? with
    | none => simp
    | some pre =>
      simp only
      obtain ⟨g1, g2, g3⟩ := processStage_counts h p k hs
      rcases hps : processStage B p k with ⟨p1, r1⟩
      have hs1 := shape_of_processStage hps hs
      rw [hps] at g1 g2 g3
      cases r1 with
      | error x =>
        simp only at g3 ⊢
        by_cases hj : j = k
        · subst hj; simp; omega
        · rw [g1 j hj]; exact Nat.le_add_right _ _
      | ok r1 =>
        simp only
        obtain ⟨i1, i2, i3⟩ := singleRetry_counts h L hL rf pre k fuel p1 hs1
        rcases hrt : singleRetry B L rf pre fuel p1 k with ⟨p2, r2⟩
        rw [hrt] at i1 i2 i3
        have hbound : attAt att p2 k ≤ attAt att p k + L := by
          simp only at i3
          cases r1 with
          | complete => simp only at g3; simp [g3.2] at i3; omega
          | incomplete => simp only at g3; simp [g3.2] at i3; omega
          | message a b => simp only at g3; rw [g3.1] at i3; split at i3 <;> omega
        have hother : ∀ j ≠ k, attAt att p2 j = attAt att p j := fun j hj => by
          rw [i2 j hj]; exact g1 j hj
        cases r2 with
        | error x =>
          simp only
          by_cases hj : j = k
          · subst hj; simpa using hbound
          · rw [hother j hj]; exact Nat.le_add_right _ _
        | ok r2 =>
          simp only
          have := ih p2 (List.nodup_cons.mp hn).2 i1 j
          by_cases hj : j = k
          · subst hj
            simp only [hk, if_false] at this
            simp; omega
          · rw [hother j hj] at this
            simpa [hj] using this

end Verif.Pipeline
