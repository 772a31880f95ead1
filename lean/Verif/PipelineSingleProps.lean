import Verif.PipelineSingle

/-!
# Property theorems for `processSingle` and processing limits (C07, C08, C44)
-/

namespace Verif.Pipeline

open Verif

variable {S D M : Type}

/-! ## C07 -/

/-- The full claim C07 for one call: if `processSingle(x)` returns, it returns the composition of all
stages applied to `x`, and every queue is as before. -/
def SingleOk (B : Beh S D M) (fn : Nat → D → D) (p : Pipe S D M) (x : D) (limit : Nat) (rf : Bool)
    (fuel : Nat) : Prop :=
  ∀ p' y, processSingle B fuel p (.data x) limit rf = (p', .ok y) →
    y = .data (through fn (ids p) x) ∧ p'.queues = p.queues ∧ ids p' = ids p

/-- **C07**, for pipelines in which only the *first* queue may hold data (any data): whatever retries the
elements ask for, if `processSingle(x)` returns, it returns the composition of all stages applied to `x`,
and every queue is as before.
Missing for the full claim: data waiting in later stages or in the output queue, for which it is false
(`processSingle_returns_other_data`). -/
theorem processSingle_composes (B : Beh S D M) (fn : Nat → D → D) (hB : Faithful B fn)
    (p : Pipe S D M) (hs : p.queues.length = p.elems.length + 1) (hc : p.cycles.length = p.elems.length)
    (hlater : ∀ j, 0 < j → j ≤ p.elems.length → p.queues[j]? = some [])
    (x : D) (limit : Nat) (rf : Bool) (fuel : Nat) : SingleOk B fn p x limit rf fuel := by
  intro p' y h
  have hl0 : 0 < p.queues.length := by omega
  have hlen : (ids p).length = p.elems.length := by simp [ids]
  unfold processSingle at h
  dsimp only at h
  simp only [Py.update_zero] at h
  rcases hlp : singleLoop B fuel limit rf { p with queues := p.queues.modify 0 (Py.append (.data x)) }
      (List.range p.elems.length) with ⟨p1, r1⟩
  rw [hlp] at h
  cases r1 with
  | error e => simp at h
  | ok r1 =>
    simp only at h
    have hat : At p.queues (ids p) 0 x
        ({ p with queues := p.queues.modify 0 (Py.append (.data x)) } : Pipe S D M) := by
      refine ⟨by simpa [Shape] using ⟨hc, hs⟩, rfl, p.queues[0], List.getElem?_eq_getElem hl0, ?_⟩
      simp only
      apply List.ext_getElem?
      intro n
      simp only [List.getElem?_modify]
      split
      · rename_i hn; subst hn; simp [hl0, Py.append]
      · rfl
    rw [List.range_eq_range', ← hlen] at hlp
    have hfin := at_loop hB (base := p.queues) fuel limit rf
      (fun j h1 h2 => hlater j h1 (by omega)) (ids p).length 0 x _ p1 (by omega) hat hlp
    simp only [List.drop_zero] at hfin
    obtain ⟨s1, i1, b, hb, hq⟩ := hfin
    have hb0 : p1.queues[p.elems.length]? = some (b ++ [.data (through fn (ids p) x)]) := by
      rw [hq, hlen] at *; rw [Py.getElem?_mod_eq, hb]; rfl
    have hpl : p1.queues.length = p.elems.length + 1 := by rw [hq]; simpa using hs
    have hidx : Py.idx p1.queues.length (-1) = some p.elems.length := by rw [hpl, Py.idx_neg_one]
    rw [Py.get?_eq hidx, hb0] at h
    simp only [Option.bind_some, Py.popright_append, Prod.mk.injEq, Except.ok.injEq] at h
    obtain ⟨h1, h2⟩ := h
    refine ⟨h2.symm, ?_, ?_⟩
    · rw [← h1]
      simp only [Py.update_eq hidx]
      rw [hq, hlen, modify_modify]
      rw [hlen] at hb
      exact modify_const_id _ _ _ _ hb rfl
    · rw [← h1]; exact i1

/-- A retrying element, the first queue full of other data: the hypotheses are met and the call does return. -/
example : (processSingle demoBeh 9 ⟨[⟨1, 0, 0⟩, ⟨2, 0, 0⟩], [0, 0], [[.data 4, .data 3], [], []]⟩
    (.data 7) 10 true) = (⟨[⟨1, 0, 2⟩, ⟨2, 0, 2⟩], [0, 0], [[.data 4, .data 3], [], []]⟩, .ok (.data 712)) := by
  decide

/-- C07 is false when a later stage holds data: `processSingle(7)` on a two-stage pipeline with the datum
3 waiting at the second stage returns the result for 3, not for 7 (whose intermediate result stays
behind in the pipeline). -/
theorem processSingle_returns_other_data :
    ∃ (p : Pipe Unit Nat Unit) (x : Nat), p.queues.length = p.elems.length + 1 ∧
      p.cycles.length = p.elems.length ∧ Completes quickBeh (fun i d => 10 * d + i) ∧
      (processSingle quickBeh 9 p (.data x) 10 true).2 = .ok (.data 32) ∧
      through (fun i d => 10 * d + i) (ids p) x = 712 ∧
      ¬ SingleOk quickBeh (fun i d => 10 * d + i) p x 10 true 9 := by
  refine ⟨⟨[⟨1, 0, ()⟩, ⟨2, 0, ()⟩], [0, 0], [[], [.data 3], []]⟩, 7, rfl, rfl, quickBeh_completes,
    by decide, by decide, ?_⟩
  intro h
  have := h (processSingle quickBeh 9 ⟨[⟨1, 0, ()⟩, ⟨2, 0, ()⟩], [0, 0], [[], [.data 3], []]⟩ (.data 7) 10 true).1
    (.data 32) (by decide)
  exact absurd this.1 (by decide)

theorem singleRetry_zero (B : Beh S D M) (limit : Nat) (rf : Bool) (pre : Item D M) (fuel : Nat)
    (p : Pipe S D M) (k : Nat) (h : cyc p k = 0) :
    singleRetry B limit rf pre (fuel + 1) p k = (p, .ok ()) := by
  unfold singleRetry; rw [if_pos h]

/-- Termination half of C07: when every element completes at once, `processSingle` does return (any
limit, any queued data in front of the first stage). -/
theorem processSingle_returns (B : Beh S D M) (fn : Nat → D → D) (hB : Completes B fn)
    (p : Pipe S D M) (hs : p.queues.length = p.elems.length + 1) (hc : p.cycles.length = p.elems.length)
    (hlater : ∀ j, 0 < j → j ≤ p.elems.length → p.queues[j]? = some [])
    (x : D) (limit : Nat) (rf : Bool) (fuel : Nat) :
    ∃ p', processSingle B (fuel + 1) p (.data x) limit rf = (p', .ok (.data (through fn (ids p) x))) ∧
      p'.queues = p.queues := by
  have hlen : (ids p).length = p.elems.length := by simp [ids]
  have hl0 : 0 < p.queues.length := by omega
  have hloop : ∀ (m k : Nat) (v : D) (q : Pipe S D M), k + m = (ids p).length → At p.queues (ids p) k v q →
      ∃ q', singleLoop B (fuel + 1) limit rf q (List.range' k m) = (q', .ok ()) := by
    intro m
    induction m with
    | zero => intro k v q _ _; exact ⟨q, rfl⟩
    | succ m ih =>
      intro k v q hk ha
      have hkl : k < (ids p).length := by omega
      have hi : (ids p)[k]? = some (ids p)[k] := List.getElem?_eq_getElem hkl
      have hst := at_stage hB.faithful ha hi (hlater (k + 1) (by omega) (by omega))
      obtain ⟨s1, i1, b, hb, hq⟩ := id ha
      have hqk : q.queues[k]? = some (b ++ [.data v]) := by rw [hq]; simp [hb]
      have hel : k < q.elems.length := by
        have : (ids q).length = q.elems.length := by simp [ids]
        rw [← this, i1]; exact hkl
      have hps := processStage_completes hB q k _ v b (List.getElem?_eq_getElem hel) hqk
      rw [hps] at hst
      rw [List.range'_succ]
      simp only [singleLoop, hqk, Option.getD_some, List.getLast?_append, List.getLast?_singleton,
        Option.some_or, hps]
      rw [singleRetry_zero B limit rf _ fuel _ k hst.2]
      exact ih (k + 1) _ _ (by omega) hst.1
  have hat : At p.queues (ids p) 0 x
      ({ p with queues := p.queues.modify 0 (Py.append (.data x)) } : Pipe S D M) := by
    refine ⟨by simpa [Shape] using ⟨hc, hs⟩, rfl, p.queues[0], List.getElem?_eq_getElem hl0, ?_⟩
    simp only
    apply List.ext_getElem?
    intro n
    simp only [List.getElem?_modify]
    split
    · rename_i hn; subst hn; simp [hl0, Py.append]
    · rfl
  obtain ⟨q', hq'⟩ := hloop (ids p).length 0 x _ (by omega) hat
  have hfin := at_loop hB.faithful (base := p.queues) (fuel + 1) limit rf
      (fun j h1 h2 => hlater j h1 (by omega)) (ids p).length 0 x _ q' (by omega) hat hq'
  rw [hlen, ← List.range_eq_range'] at hq'
  obtain ⟨s1, i1, b, hb, hq⟩ := hfin
  have hb0 : q'.queues[p.elems.length]? = some (b ++ [.data (through fn (ids p) x)]) := by
    rw [hq, hlen] at *; rw [Py.getElem?_mod_eq, hb]; simp
  have hpl : q'.queues.length = p.elems.length + 1 := by rw [hq]; simpa using hs
  have hidx : Py.idx q'.queues.length (-1) = some p.elems.length := by rw [hpl, Py.idx_neg_one]
  have hres : ∃ p', processSingle B (fuel + 1) p (.data x) limit rf
      = (p', .ok (.data (through fn (ids p) x))) := by
    unfold processSingle
    simp only [Py.update_zero, hq', Py.get?_eq hidx, hb0, Option.bind_some, Py.popright_append]
    exact ⟨_, rfl⟩
  obtain ⟨p', hp'⟩ := hres
  exact ⟨p', hp', (processSingle_composes B fn hB.faithful p hs hc hlater x limit rf (fuel + 1) p' _ hp').2.1⟩

/-! ## C08 -/

/-- **C08** for `processSingle`: with a positive processing limit `L`, no stage's `plProcess` is called more
than `L` times in one call, whatever the elements do, whatever is queued, and however the call ends.
(`att` is any state component that counts the calls, e.g. of instrumented elements.) -/
theorem processSingle_attempts_bounded (B : Beh S D M) (att : S → Nat) (h : Counts B att) (p : Pipe S D M)
    (hs : p.queues.length = p.elems.length + 1) (hc : p.cycles.length = p.elems.length)
    (x : Item D M) (L : Nat) (hL : 0 < L) (rf : Bool) (fuel : Nat) (j : Nat) :
    attAt att (processSingle B fuel p x L rf).1 j ≤ attAt att p j + L := by
  have h0 := singleLoop_counts h L hL rf fuel (List.range p.elems.length)
    ({ p with queues := Py.update p.queues 0 (Py.append x) }) List.nodup_range
    (shape_queues _ _ ⟨hc, hs⟩) j
  have h1 : attAt att (singleLoop B fuel L rf { p with queues := Py.update p.queues 0 (Py.append x) }
      (List.range p.elems.length)).1 j ≤ attAt att p j + L := by
    refine Nat.le_trans h0 ?_
    have : attAt att ({ p with queues := Py.update p.queues 0 (Py.append x) } : Pipe S D M) j = attAt att p j := rfl
    rw [this]
    split <;> omega
  unfold processSingle
  dsimp only
  rcases hlp : singleLoop B fuel L rf { p with queues := Py.update p.queues 0 (Py.append x) }
      (List.range p.elems.length) with ⟨p1, r1⟩
  rw [hlp] at h1
  cases r1 with
  | error e => exact h1
  | ok r1 =>
    simp only
    split <;> exact h1

/-- An element kind that never completes and saves its datum; the state counts the attempts. -/
def stuckBeh : Beh Nat Nat Unit where
  accepts _ _ := true
  process e d := (e.st + 1, [d], .none)
  interact e _ := (e.st, [], .none)
  deliver _ e := (e.st, true)

example : Counts stuckBeh id := ⟨fun _ _ => rfl, fun _ _ => rfl, fun _ _ => rfl⟩
example : processSingle stuckBeh 99 (mk [⟨1, 0, 0⟩]) (.data 7) 4 true
    = (⟨[⟨1, 0, 4⟩], [4], [[.data 7], []]⟩, .error .pipelineError) := by decide

/-! ### `process(repeat=L)` -/

/-- `f` counts failed attempts since the last completion. -/
def CountsFails (B : Beh S D M) (f : S → Nat) : Prop :=
  (∀ e d, match attempt B e d with
    | (s, _, .value _) => f s = 0
    | (s, _, _) => f s ≤ f e.st + 1) ∧
  (∀ m e, f (B.deliver m e).1 ≤ f e.st)

theorem stageMsg_fails {B : Beh S D M} {f : S → Nat} (h : CountsFails B f) (p : Pipe S D M) (k : Nat)
    (e : Elem S) (m : Msg M) (he : p.elems[k]? = some e) :
    attAt f (stageMsg B p k e m).1 k ≤ attAt f p k ∧ (stageMsg B p k e m).1.cycles = p.cycles := by
  have hset : attAt f (setSt p k (B.deliver m.payload e).1) k ≤ attAt f p k := by
    have := attAt_modify f p k k (B.deliver m.payload e).1 p.cycles p.queues e he
    simp only [setSt, Py.update_nat]
    rw [this]
    have h2 := h.2 m.payload e
    simp only [if_true]
    simpa [attAt, he] using h2
  unfold stageMsg
  dsimp only
  split
  · split
    · split <;> exact ⟨Nat.le_refl _, rfl⟩
    · exact ⟨Nat.le_refl _, rfl⟩
  · split
    · split
      · split
        · split <;> exact ⟨hset, rfl⟩
        · exact ⟨hset, rfl⟩
      · exact ⟨hset, rfl⟩
    · exact ⟨hset, rfl⟩

/-- **C08** for `process`/`processToStage` with `repeat=L`, per stage drained: if the element has so far
failed `c` times in a row, as recorded by the stage's retry counter, then however the draining of the
stage ends, it has at no time failed more than `max L (c+1)` times in a row. -/
theorem drain_attempts_bounded (B : Beh S D M) (f : S → Nat) (h : CountsFails B f) (L : Nat) (hL : 0 < L)
    (k : Nat) (fuel : Nat) (acc : List StageRet) (p : Pipe S D M)
    (hs : p.queues.length = p.elems.length + 1) (hc : p.cycles.length = p.elems.length)
    (hf : attAt f p k ≤ cyc p k) :
    attAt f (drainLoop B (.limit L) fuel p k acc).1 k ≤ max L (cyc p k + 1) := by
  -- one stage run
  have hstep : ∀ p : Pipe S D M, Shape p → attAt f p k ≤ cyc p k →
      Shape (processStage B p k).1 ∧
      attAt f (processStage B p k).1 k ≤ cyc p k + 1 ∧
      (∀ r, (processStage B p k).2 = .ok r →
        attAt f (processStage B p k).1 k ≤ cyc (processStage B p k).1 k ∧
        cyc (processStage B p k).1 k ≤ cyc p k + 1) := by
    intro p hs hf
    refine ⟨shape_processStage B p k hs, ?_⟩
    rcases stage_cases p k with h0 | h0 | ⟨e, q', d, he, hq⟩ | ⟨e, q', m, he, hq⟩
    · rw [processStage_noelem B p k h0]; exact ⟨Nat.le_succ_of_le hf, by intro r hr; simp at hr⟩
    · rw [processStage_empty B p k h0]; exact ⟨Nat.le_succ_of_le hf, by intro r hr; simp at hr⟩
    · have hkl : k < p.elems.length := (List.getElem?_eq_some_iff.mp he).1
      have hcl : k < p.cycles.length := by rw [hs.1]; exact hkl
      have hfe : attAt f p k = f e.st := by simp [attAt, he]
      cases hacc : B.accepts e d with
      | false =>
        rw [processStage_reject B p k e d q' he hq hacc]
        exact ⟨Nat.le_succ_of_le hf, by intro r hr; simp at hr⟩
      | true =>
        rw [processStage_data B p k e d q' he hq hacc]
        have ha := h.1 e d
        rcases hat : attempt B e d with ⟨s, r, o⟩
        rw [hat] at ha
        cases o with
        | value y =>
          simp only at ha ⊢
          rw [attAt_modify f p k k s _ _ e he]
          simp [ha, cyc, hcl]
        | raise =>
          simp only at ha ⊢
          rw [attAt_modify f p k k s _ _ e he]
          exact ⟨by simp; omega, by intro r hr; simp at hr⟩
        | none =>
          simp only at ha ⊢
          rw [attAt_modify f p k k s _ _ e he]
          have hcyc : cyc p k = p.cycles[k] := by simp [cyc, hcl]
          simp [cyc, hcl]
          omega
    · rw [processStage_msg B p k e m q' he hq]
      obtain ⟨h1, h2⟩ := stageMsg_fails h ({ p with queues := p.queues.modify k (fun _ => q') }) k e m he
      have h3 : attAt f ({ p with queues := p.queues.modify k (fun _ => q') } : Pipe S D M) k = attAt f p k := rfl
      have h4 : cyc (stageMsg B { p with queues := p.queues.modify k (fun _ => q') } k e m).1 k = cyc p k := by
        simp [cyc, h2]
      exact ⟨by omega, fun r _ => ⟨by omega, by omega⟩⟩
  -- the retry loop
  have hretry : ∀ (fuel : Nat) (p : Pipe S D M) acc (b : Nat), Shape p → attAt f p k ≤ cyc p k →
      cyc p k ≤ b → L ≤ b →
      Shape (retryLoop B (Repeat.hit (.limit L)) fuel p k acc).1 ∧
      attAt f (retryLoop B (Repeat.hit (.limit L)) fuel p k acc).1 k ≤ b ∧
      (∀ r, (retryLoop B (Repeat.hit (.limit L)) fuel p k acc).2 = .ok r →
        cyc (retryLoop B (Repeat.hit (.limit L)) fuel p k acc).1 k = 0 ∧
        attAt f (retryLoop B (Repeat.hit (.limit L)) fuel p k acc).1 k = 0) := by
    intro fuel
    induction fuel with
    | zero =>
      intro p acc b hs hf hb _
      exact ⟨hs, by simp only [retryLoop]; omega, by intro r hr; simp [retryLoop] at hr⟩
    | succ fuel ih =>
      intro p acc b hs hf hb hLb
      unfold retryLoop
      by_cases hz : cyc p k = 0
      · simp only [hz, if_true]
        exact ⟨hs, by omega, fun r _ => ⟨by simp only [hz], by omega⟩⟩
      · simp only [hz, if_false]
        by_cases hh : Repeat.hit (.limit L) (cyc p k) = true
        · simp only [hh, if_true]
          exact ⟨hs, by omega, by intro r hr; simp at hr⟩
        · simp only [hh]
          have hlt : cyc p k < L := by simp [Repeat.hit] at hh; omega
          obtain ⟨g0, g1, g2⟩ := hstep p hs hf
          rcases hps : processStage B p k with ⟨p1, r1⟩
          rw [hps] at g0 g1 g2
          cases r1 with
          | error x => exact ⟨g0, by simp only at g1 ⊢; simp; omega, by intro r hr; simp at hr⟩
          | ok r1 =>
            obtain ⟨g3, g4⟩ := g2 r1 rfl
            exact ih p1 _ b g0 g3 (by simp only at g4; omega) hLb
  -- the drain loop
  have hdrain : ∀ (fuel : Nat) (p : Pipe S D M) acc (b : Nat), Shape p → attAt f p k ≤ cyc p k →
      cyc p k + 1 ≤ b → L ≤ b → attAt f (drainLoop B (.limit L) fuel p k acc).1 k ≤ b := by
    intro fuel
    induction fuel with
    | zero => intro p acc b hs hf hb _; simp only [drainLoop]; omega
    | succ fuel ih =>
      intro p acc b hs hf hb hLb
      unfold drainLoop
      split
      · simp only; omega
      · obtain ⟨g0, g1, g2⟩ := hstep p hs hf
        rcases hps : processStage B p k with ⟨p1, r1⟩
        rw [hps] at g0 g1 g2
        cases r1 with
        | error x => simp only at g1 ⊢; omega
        | ok r1 =>
          obtain ⟨g3, g4⟩ := g2 r1 rfl
          simp only at g3 g4 ⊢
          obtain ⟨i0, i1, i2⟩ := hretry fuel p1 acc b g0 g3 (by omega) hLb
          rcases hrt : retryLoop B (Repeat.hit (.limit L)) fuel p1 k acc with ⟨p2, r2⟩
          rw [hrt] at i0 i1 i2
          cases r2 with
          | error x => simpa using i1
          | ok r2 =>
            obtain ⟨j1, j2⟩ := i2 r2 rfl
            simp only at j1 j2 ⊢
            exact ih p2 r2 b i0 (by omega) (by omega) hLb
  exact hdrain fuel p acc _ ⟨hc, hs⟩ hf (Nat.le_max_right _ _) (Nat.le_max_left _ _)

example : CountsFails stuckBeh id := ⟨fun _ _ => by simp [attempt, stuckBeh], fun _ _ => by simp [stuckBeh]⟩
example : (drainLoop stuckBeh (.limit 3) 99 (feed (mk [⟨1, 0, 0⟩]) (.data 7)) 0 []).1.elems = [⟨1, 0, 3⟩] := by
  decide

/-! ## C44: what a failed `processSingle` leaves behind -/

/-- The full claim C44 for one call that hit the limit at the first stage: with `removefailed` the datum
is gone, without it it waits exactly once in front of the stage; everything else as before. -/
def LimitOk (B : Beh S D M) (p : Pipe S D M) (x : D) (limit : Nat) (rf : Bool) (fuel : Nat) : Prop :=
  ∀ p', processSingle B fuel p (.data x) limit rf = (p', .error .pipelineError) →
    p'.queues = if rf then p.queues else p.queues.modify 0 (Py.append (.data x))

/-- C44 is false with `removefailed=True`: an element that saves its datum for retry leaves it in the
pipeline although it should have been removed. -/
theorem processSingle_removefailed_leaves_datum :
    ¬ LimitOk stuckBeh (mk [⟨1, 0, 0⟩]) 7 4 true 99 := by
  intro h
  have := h ⟨[⟨1, 0, 4⟩], [4], [[.data 7], []]⟩ (by decide)
  exact absurd this (by decide)

/-- C44 is false with `removefailed=False`: the datum is then in the pipeline twice. -/
theorem processSingle_keepfailed_duplicates_datum :
    ¬ LimitOk stuckBeh (mk [⟨1, 0, 0⟩]) 7 4 false 99 := by
  intro h
  have := h ⟨[⟨1, 0, 4⟩], [4], [[.data 7, .data 7], []]⟩ (by decide)
  exact absurd this (by decide)

/-- **C44**, the part that holds: for a one-element pipeline whose element gives up on a datum without
saving it, and a limit of one attempt, the failed call behaves as documented.
Missing for the full claim: elements that save the datum (false, see above), and larger limits (the
retries then consume *other* queued data). -/
theorem processSingle_limit_one (B : Beh S D M) (p : Pipe S D M) (e : Elem S)
    (hp : p.elems = [e]) (hs : p.queues.length = 2) (hc : p.cycles.length = 1) (x : D)
    (hacc : B.accepts e x = true) (hfail : ∃ s, attempt B e x = (s, [], .none)) (rf : Bool) (fuel : Nat) :
    ∃ p', processSingle B (fuel + 1) p (.data x) 1 rf = (p', .error .pipelineError) ∧
      p'.queues = if rf then p.queues else p.queues.modify 0 (Py.append (.data x)) := by
  obtain ⟨s, hat⟩ := hfail
  obtain ⟨es, cs, qs⟩ := p
  simp only at hp hs hc
  subst hp
  match qs, cs, hs, hc with
  | [q0, q1], [c0], _, _ =>
    have hps := processStage_data B ⟨[e], [c0], [q0 ++ [.data x], q1]⟩ 0 e x q0 rfl rfl hacc
    rw [hat] at hps
    simp only [List.map_nil, List.append_nil] at hps
    unfold processSingle
    simp only [Py.update_zero, List.modify_zero_cons, Py.append, List.length_singleton]
    rw [show List.range 1 = [0] from rfl]
    have hps' : processStage B ⟨[e], [c0], [q0 ++ [.data x], q1]⟩ ((0 : Nat) : Int) = _ := hps
    simp only [singleLoop, hps']
    simp [singleRetry, cyc]
    cases rf <;> simp [Py.append]

example : ∃ s, attempt (⟨fun _ _ => true, fun e _ => (e.st + 1, [], .none), fun e _ => (e.st, [], .none),
    fun _ e => (e.st, true)⟩ : Beh Nat Nat Unit) ⟨1, 0, 0⟩ 7 = (s, [], .none) := ⟨1, rfl⟩

end Verif.Pipeline
