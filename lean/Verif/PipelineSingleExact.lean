import Verif.PipelineSingleProps

/-!
# What `processSingle` returns and leaves behind, exactly (C07, C44) (astropysics/pipeline.py:291-331)
-/

namespace Verif.Pipeline

open Verif

variable {S D M : Type}

/-! ## Specification -/

/-- A datum `v` comes to the stages `is` with the data `qs` waiting in front of them and in the output queue: every place keeps the newcomer and passes on
its oldest datum (the right end).  The result is what comes out at the end and what waits afterwards. -/
def pushThrough (fn : Nat → D → D) : List Nat → D → List (List D) → D × List (List D)
  | _, v, [] => (v, [])
  | [], v, q :: qs => ((v :: q).getLast (by simp), (v :: q).dropLast :: qs)
  | i :: is, v, q :: qs =>
    let r := pushThrough fn is (fn i ((v :: q).getLast (by simp))) qs
    (r.1, (v :: q).dropLast :: r.2)

/-! ## C07 -/

theorem modify_at {α : Type} (A : List α) (x : α) (l : List α) (f : α → α) : (A ++ x :: l).modify A.length f = A ++ f x :: l := by
  induction A with
  | nil => rfl
  | cons a A ih => simp [ih]

theorem modify_at_succ {α : Type} (A : List α) (x y : α) (l : List α) (f : α → α) :
    (A ++ x :: y :: l).modify (A.length + 1) f = A ++ x :: f y :: l := by
  induction A with
  | nil => rfl
  | cons a A ih => simpa using ih

theorem split_last {α : Type} (l : List α) (h : l ≠ []) : l.dropLast ++ [l.getLast h] = l := List.dropLast_concat_getLast h

theorem single_loop_exact (B : Beh S D M) (fn : Nat → D → D) (hB : Completes B fn) (limit : Nat) (rf : Bool) (fuel : Nat) :
    ∀ (es : List (Elem S)) (p : Pipe S D M) (A : List (List (Item D M))) (b : List D) (w : D) (qs : List (List D)) (pre : List (Elem S)),
      p.elems = pre ++ es → A.length = pre.length → qs.length = es.length → p.cycles.length = p.elems.length →
      p.queues = A ++ (b.map .data ++ [.data w]) :: qs.map (List.map .data) →
      ∃ (p' : Pipe S D M) (A' : List (List (Item D M))) (b' : List D) (w' : D),
        singleLoop B (fuel + 1) limit rf p (List.range' pre.length es.length) = (p', .ok ()) ∧
        p'.elems = p.elems ∧ p'.queues = A ++ A' ++ [b'.map .data ++ [.data w']] ∧ A'.length = es.length ∧
        (es = [] → w' = w ∧ A' = [] ∧ b' = b) ∧
        (∀ (i : Nat) (is : List Nat) (q : List D) (qs' : List (List D)), es.map (·.id) = i :: is → qs = q :: qs' →
          w' = (pushThrough fn is (fn i w) qs).1 ∧ A' ++ [b'.map .data] = (b :: (pushThrough fn is (fn i w) qs).2).map (List.map .data)) := by
  intro es
  induction es with
  | nil =>
    intro p A b w qs pre he hA hqs _ hq
    have : qs = [] := by simpa using hqs
    subst this
    refine ⟨p, [], b, w, by simp [singleLoop], rfl, by simpa using hq, rfl, fun _ => ⟨rfl, rfl, rfl⟩, ?_⟩
    intro i is q qs' h; simp at h
  | cons e es ih =>
    intro p A b w qs pre he hA hqs hc hq
    obtain ⟨q, qs', rfl⟩ : ∃ q qs', qs = q :: qs' := by
      cases qs with
      | nil => simp at hqs
      | cons q qs' => exact ⟨q, qs', rfl⟩
    have hek : p.elems[pre.length]? = some e := by rw [he]; simp
    have hqk : p.queues[pre.length]? = some (b.map .data ++ [.data w]) := by rw [hq, ← hA]; simp
    have hps := processStage_completes hB p pre.length e w (b.map .data) hek hqk
    have hcl : pre.length < p.cycles.length := by rw [hc, he]; simp
    have hlast : (fn e.id w :: q) = (fn e.id w :: q).dropLast ++ [(fn e.id w :: q).getLast (by simp)] :=
      (split_last _ (by simp)).symm
    obtain ⟨p', A', b', w', h1, h2, h3, h4, h5, h6⟩ := ih
      { elems := p.elems
        cycles := p.cycles.modify pre.length (fun _ => 0)
        queues := (p.queues.modify pre.length (fun _ => b.map .data)).modify (pre.length + 1) (Py.appendleft (.data (fn e.id w))) }
      (A ++ [b.map .data]) (fn e.id w :: q).dropLast ((fn e.id w :: q).getLast (by simp)) qs' (pre ++ [e])
      (by simpa using he) (by simp [hA]) (by simpa using hqs) (by simpa using hc)
      (by
        simp only [hq, ← hA]
        rw [modify_at, List.map_cons, modify_at_succ]
        simp only [Py.appendleft]
        rw [List.append_assoc, List.singleton_append]
        have hm := congrArg (List.map (Item.data (M := M))) hlast
        rw [List.map_append, List.map_cons, List.map_singleton] at hm
        rw [hm])
    refine ⟨p', b.map .data :: A', b', w', ?_, h2, by simpa using h3, by simpa using h4, by simp, ?_⟩
    · rw [List.length_cons, List.range'_succ]
      simp only [singleLoop, hqk, Option.getD_some, List.getLast?_append, List.getLast?_singleton, Option.some_or, hps]
      rw [singleRetry_zero B limit rf _ fuel _ _ (by simp [cyc, hcl])]
      simpa using h1
    · intro i is q0 qs0 hes hqq
      simp only [List.map_cons, List.cons.injEq] at hes hqq
      obtain ⟨rfl, rfl⟩ := hes
      obtain ⟨rfl, rfl⟩ := hqq
      cases es with
      | nil =>
        obtain ⟨rfl, rfl, rfl⟩ := h5 rfl
        have : qs' = [] := by simpa using hqs
        subst this
        simp [pushThrough]
      | cons e2 es2 =>
        obtain ⟨q2, qs2, rfl⟩ : ∃ q2 qs2, qs' = q2 :: qs2 := by
          cases qs' with
          | nil => simp at hqs
          | cons q2 qs2 => exact ⟨q2, qs2, rfl⟩
        obtain ⟨g1, g2⟩ := h6 e2.id (es2.map (·.id)) q2 qs2 rfl rfl
        simp only [List.map_cons]
        rw [show pushThrough fn (e2.id :: es2.map (·.id)) (fn e.id w) (q :: q2 :: qs2)
          = ((pushThrough fn (es2.map (·.id)) (fn e2.id ((fn e.id w :: q).getLast (by simp))) (q2 :: qs2)).1,
             (fn e.id w :: q).dropLast :: (pushThrough fn (es2.map (·.id)) (fn e2.id ((fn e.id w :: q).getLast (by simp))) (q2 :: qs2)).2) from rfl]
        refine ⟨g1, ?_⟩
        rw [List.cons_append, g2]

/-- **C07**, exactly: if every element completes at once, `processSingle(x)` on a pipeline of at least one element with any data anywhere returns what comes
out when `x`, processed by the first stage, is pushed through the later queues, each of which keeps the newcomer and passes on its oldest datum; the first
queue is untouched. -/
theorem processSingle_exact (B : Beh S D M) (fn : Nat → D → D) (hB : Completes B fn) (e : Elem S) (es : List (Elem S)) (cs : List Nat)
    (q0 : List D) (qs : List (List D)) (hc : cs.length = es.length + 1) (hq : qs.length = es.length + 1) (x : D) (limit : Nat) (rf : Bool) (fuel : Nat) :
    ∃ p', processSingle B (fuel + 1) ⟨e :: es, cs, (q0 :: qs).map (List.map .data)⟩ (.data x) limit rf =
        (p', .ok (.data (pushThrough fn (es.map (·.id)) (fn e.id x) qs).1)) ∧ p'.elems = e :: es ∧
      p'.queues = (q0 :: (pushThrough fn (es.map (·.id)) (fn e.id x) qs).2).map (List.map .data) := by
  obtain ⟨q, qs', rfl⟩ : ∃ q qs', qs = q :: qs' := by
    cases qs with
    | nil => simp at hq
    | cons q qs' => exact ⟨q, qs', rfl⟩
  obtain ⟨p', A', b', w', h1, h2, h3, h4, _, h6⟩ := single_loop_exact B fn hB limit rf fuel (e :: es)
    ⟨e :: es, cs, (q0.map .data ++ [.data x]) :: (q :: qs').map (List.map .data)⟩ [] q0 x (q :: qs') [] rfl rfl (by simpa using hq) (by simpa using hc) rfl
  obtain ⟨g1, g2⟩ := h6 e.id (es.map (·.id)) q qs' rfl rfl
  unfold processSingle
  simp only [Py.update_zero, List.map_cons, List.modify_zero_cons, Py.append, List.length_cons]
  rw [List.range_eq_range']
  simp only [List.length_nil, List.length_cons, List.map_cons] at h1
  simp only [h1]
  simp only [List.nil_append] at h3
  have hlen : p'.queues.length = es.length + 1 + 1 := by rw [h3]; simp [h4]
  have hidx : Py.idx p'.queues.length (-1) = some (es.length + 1) := by rw [hlen, Py.idx_neg_one]
  have hget : p'.queues[es.length + 1]? = some (b'.map .data ++ [.data w']) := by
    rw [h3, ← show A'.length = es.length + 1 by simpa using h4]; simp
  simp only [Py.get?_eq hidx, hget, Option.bind_some, Py.popright_append]
  rw [← g1]
  refine ⟨_, rfl, h2, ?_⟩
  simp only [Py.update_eq hidx]
  rw [h3, ← show A'.length = es.length + 1 by simpa using h4, modify_at, g2]
  rfl

/-- With nothing waiting behind the first stage the data go straight through. -/
theorem pushThrough_empty (fn : Nat → D → D) : ∀ (is : List Nat) (v : D),
    pushThrough fn is v (List.replicate (is.length + 1) []) = (through fn is v, List.replicate (is.length + 1) []) := by
  intro is
  induction is with
  | nil => intro v; simp [pushThrough, through]
  | cons i is ih =>
    intro v
    rw [List.length_cons, List.replicate_succ]
    simp only [pushThrough, List.getLast_singleton, List.dropLast_singleton, ih, through]

theorem last_snoc {α : Type} (v o : α) (q : List α) (h : v :: (q ++ [o]) ≠ []) : (v :: (q ++ [o])).getLast h = o := by
  have : v :: (q ++ [o]) = (v :: q) ++ [o] := rfl
  simp only [this, List.getLast_concat]

/-- **C07**: the result is that of the oldest datum in front of the last occupied stage, sent through the stages from there on. -/
theorem pushThrough_last (fn : Nat → D → D) : ∀ (is js : List Nat) (v : D) (qs : List (List D)) (q : List D) (o : D), qs.length = is.length →
    (pushThrough fn (is ++ js) v (qs ++ (q ++ [o]) :: List.replicate js.length [])).1 = through fn js o := by
  intro is
  induction is with
  | nil =>
    intro js v qs q o hl
    have : qs = [] := by simpa using hl
    subst this
    cases js with
    | nil => simp [pushThrough, through, last_snoc]
    | cons j js =>
      rw [List.length_cons]
      simp only [List.nil_append, pushThrough, through]
      rw [last_snoc, pushThrough_empty]
  | cons i is ih =>
    intro js v qs q o hl
    obtain ⟨q1, qs1, rfl⟩ : ∃ q1 qs1, qs = q1 :: qs1 := by
      cases qs with
      | nil => simp at hl
      | cons q qs' => exact ⟨q, qs', rfl⟩
    simp only [List.cons_append, pushThrough]
    exact ih js _ qs1 q o (by simpa using hl)

/-- Three stages, data everywhere: the newcomer 7 stays at the second stage and the oldest datum of the output queue comes out. -/
example : pushThrough (fun i d => 10 * d + i) [2, 3] 71 [[4, 5], [6], [8, 9]] = (9, [[71, 4], [52], [63, 8]]) := by decide

/-! ## C44 -/

theorem at_retry_error {B : Beh S D M} {fn : Nat → D → D} (hB : Faithful B fn)
    {base : List (List (Item D M))} {is : List Nat} {k i : Nat} {v : D}
    (hi : is[k]? = some i) (hnext : base[k + 1]? = some []) (limit : Nat) (rf : Bool) :
    ∀ (fuel : Nat) (p p' : Pipe S D M),
      (cyc p k = 0 ∨ cyc p k ≠ 0 ∧ At base is k v p) →
      singleRetry B limit rf (.data v) fuel p k = (p', .error .pipelineError) →
      p'.queues = base.modify k (fun b => b ++ .data v :: if rf then [] else [.data v]) := by
  intro fuel
  induction fuel with
  | zero => intro p p' _ h; simp [singleRetry] at h
  | succ fuel ih =>
    intro p p' hc h
    unfold singleRetry at h
    rcases hc with hc | ⟨hc, ha⟩
    · simp [hc] at h
    · simp only [hc, if_false] at h
      split at h
      · simp only [Prod.mk.injEq, and_true] at h
        obtain ⟨_, _, b, hb, hq⟩ := ha
        rw [← h]
        have key : base.modify k (fun b => b ++ .data v :: if rf then [] else [.data v])
            = base.modify k (fun _ => b ++ .data v :: if rf then [] else [.data v]) := by
          apply List.ext_getElem?
          intro n
          simp only [List.getElem?_modify]
          split
          · rename_i hn; subst hn; simp [hb]
          · rfl
        rw [key]
        cases rf with
        | true => simp [hq]
        | false => simp only [Bool.false_eq_true, if_false, Py.update_nat, hq, modify_modify]; congr 1; funext _; simp [Py.append]
      · have hst := at_stage hB ha hi hnext
        rcases hps : processStage B p k with ⟨p1, r1⟩
        rw [hps] at h hst
        cases r1 with
        | error x =>
          simp only [Prod.mk.injEq, Except.error.injEq] at h
          exfalso
          obtain ⟨hs, hids, b, hb, hq⟩ := ha
          rw [← hids] at hi
          simp only [Verif.Pipeline.ids, List.getElem?_map, Option.map_eq_some_iff] at hi
          obtain ⟨e, he, rfl⟩ := hi
          have hqk : p.queues[k]? = some (b ++ [.data v]) := by rw [hq]; simp [hb]
          have hd := processStage_data B p k e v b he hqk (hB e v).1
          rw [hps] at hd
          rcases hat : attempt B e v with ⟨s, r, o⟩
          rw [hat] at hd
          cases o <;> simp at hd
          rw [hd.2] at h; simp at h
        | ok r1 =>
          simp only at h
          cases r1 with
          | complete => exact ih _ _ (Or.inl hst.2) h
          | incomplete => exact ih _ _ (Or.inr ⟨by rw [hst.2]; omega, hst.1⟩) h
          | message a b => exact absurd hst id

theorem at_loop_error {B : Beh S D M} {fn : Nat → D → D} (hB : Faithful B fn)
    {base : List (List (Item D M))} {is : List Nat} (fuel limit : Nat) (rf : Bool)
    (hnext : ∀ j, 0 < j → j ≤ is.length → base[j]? = some []) :
    ∀ (m k : Nat) (v : D) (p p' : Pipe S D M), k + m = is.length → At base is k v p →
      singleLoop B fuel limit rf p (List.range' k m) = (p', .error .pipelineError) →
      ∃ j, j < m ∧ p'.queues = base.modify (k + j) (fun b => b ++ .data (through fn ((is.drop k).take j) v) ::
        if rf then [] else [.data (through fn ((is.drop k).take j) v)]) := by
  intro m
  induction m with
  | zero => intro k v p p' hk ha h; simp [singleLoop] at h
  | succ m ih =>
    intro k v p p' hk ha h
    have hkl : k < is.length := by omega
    have hi : is[k]? = some is[k] := List.getElem?_eq_getElem hkl
    obtain ⟨hs, hids, b, hb, hq⟩ := id ha
    have hqk : p.queues[k]? = some (b ++ [.data v]) := by rw [hq]; simp [hb]
    rw [List.range'_succ] at h
    simp only [singleLoop, hqk, Option.getD_some, List.getLast?_append, List.getLast?_singleton, Option.some_or] at h
    have hst := at_stage hB ha hi (hnext (k + 1) (by omega) (by omega))
    rcases hps : processStage B p k with ⟨p1, r1⟩
    rw [hps] at h hst
    cases r1 with
    | error x =>
      exfalso
      simp only [Prod.mk.injEq, Except.error.injEq] at h
      have hel : k < p.elems.length := by
        have : (Verif.Pipeline.ids p).length = p.elems.length := by simp [Verif.Pipeline.ids]
        rw [← this, hids]; exact hkl
      obtain ⟨e, he⟩ : ∃ e, p.elems[k]? = some e := ⟨_, List.getElem?_eq_getElem hel⟩
      have hd := processStage_data B p k e v b he hqk (hB e v).1
      rw [hps] at hd
      rcases hat : attempt B e v with ⟨s, r, o⟩
      rw [hat] at hd
      cases o <;> simp at hd
      rw [hd.2] at h; simp at h
    | ok r1 =>
      simp only at h
      have hdisj : cyc p1 k = 0 ∧ At base is (k + 1) (fn is[k] v) p1 ∨ cyc p1 k ≠ 0 ∧ At base is k v p1 := by
        cases r1 with
        | complete => exact Or.inl ⟨hst.2, hst.1⟩
        | incomplete => exact Or.inr ⟨by rw [hst.2]; omega, hst.1⟩
        | message a b => exact absurd hst id
      rcases hrt : singleRetry B limit rf (.data v) fuel p1 k with ⟨p2, r2⟩
      rw [hrt] at h
      cases r2 with
      | error x =>
        simp only [Prod.mk.injEq, Except.error.injEq] at h
        obtain ⟨rfl, rfl⟩ := h
        refine ⟨0, by omega, ?_⟩
        simpa [through] using at_retry_error hB hi (hnext (k + 1) (by omega) (by omega)) limit rf fuel p1 p2
          (hdisj.imp And.left id) hrt
      | ok r2 =>
        have h2 := at_retry hB hi (hnext (k + 1) (by omega) (by omega)) limit rf _ fuel p1 p2 hdisj hrt
        obtain ⟨j, hj, he⟩ := ih (k + 1) (fn is[k] v) p2 p' (by omega) h2 h
        refine ⟨j + 1, by omega, ?_⟩
        rw [List.drop_eq_getElem_cons hkl, List.take_succ_cons]
        simp only [through]
        rw [show k + (j + 1) = k + 1 + j by omega]
        exact he

/-- **C44**, exactly, for elements that save a datum they did not complete (as `plProcess` is documented to): whenever `processSingle(x)` fails because of
its limit, at whatever stage and for whatever limit, the datum (as it came to that stage) is in front of that stage once with `removefailed=True` and
twice with `removefailed=False`, and nothing else has changed. -/
theorem processSingle_limit_exact (B : Beh S D M) (fn : Nat → D → D) (hB : Faithful B fn)
    (p : Pipe S D M) (hs : p.queues.length = p.elems.length + 1) (hc : p.cycles.length = p.elems.length)
    (hlater : ∀ j, 0 < j → j ≤ p.elems.length → p.queues[j]? = some [])
    (x : D) (limit : Nat) (rf : Bool) (fuel : Nat) (p' : Pipe S D M)
    (h : processSingle B fuel p (.data x) limit rf = (p', .error .pipelineError)) :
    ∃ k, k < p.elems.length ∧ p'.queues = p.queues.modify k (fun b => b ++ .data (through fn ((ids p).take k) x) ::
      if rf then [] else [.data (through fn ((ids p).take k) x)]) := by
  have hl0 : 0 < p.queues.length := by omega
  have hlen : (ids p).length = p.elems.length := by simp [ids]
  unfold processSingle at h
  dsimp only at h
  simp only [Py.update_zero] at h
  rcases hlp : singleLoop B fuel limit rf { p with queues := p.queues.modify 0 (Py.append (.data x)) }
      (List.range p.elems.length) with ⟨p1, r1⟩
  rw [hlp] at h
  cases r1 with
  | ok r1 =>
    simp only at h
    split at h <;> simp at h
  | error e =>
    simp only [Prod.mk.injEq, Except.error.injEq] at h
    obtain ⟨rfl, rfl⟩ := h
    have hat : At p.queues (ids p) 0 x
        ({ p with queues := p.queues.modify 0 (Py.append (.data x)) } : Pipe S D M) := by
      refine ⟨by simpa [Shape] using ⟨hc, hs⟩, rfl, p.queues[0], List.getElem?_eq_getElem hl0, ?_⟩
      simp only
      apply List.ext_getElem?
      intro n
      simp only [List.getElem?_modify]
      split
      · rename_i hn; subst hn; simp [hl0, Py.append]
      · rfl
    rw [List.range_eq_range', ← hlen] at hlp
    obtain ⟨j, hj, he⟩ := at_loop_error hB (base := p.queues) fuel limit rf
      (fun j h1 h2 => hlater j h1 (by omega)) (ids p).length 0 x _ p1 (by omega) hat hlp
    refine ⟨j, by omega, ?_⟩
    simpa using he

/-- Non-vacuity: the second element never completes the datum 7, which came to it as 71; with `removefailed=True` it stays there once, otherwise twice; the
data waiting at the first stage stay. -/
def lateStuck : Beh Nat Nat Unit :=
  ⟨fun _ _ => true, fun e d => if e.id = 1 then (e.st, [], .value (10 * d + 1)) else (e.st, [d], .none), fun e _ => (e.st, [], .none), fun _ e => (e.st, true)⟩

theorem lateStuck_faithful : Faithful lateStuck (fun i d => 10 * d + i) := by
  intro e d
  refine ⟨rfl, ?_⟩
  simp only [lateStuck]
  by_cases h : e.id = 1
  · simp [h]
  · simp [h]

example : processSingle lateStuck 99 ⟨[⟨1, 0, 0⟩, ⟨2, 0, 0⟩], [0, 0], [[.data 4], [], []]⟩ (.data 7) 3 true =
    (⟨[⟨1, 0, 0⟩, ⟨2, 0, 0⟩], [0, 3], [[.data 4], [.data 71], []]⟩, .error .pipelineError) := by decide
example : processSingle lateStuck 99 ⟨[⟨1, 0, 0⟩, ⟨2, 0, 0⟩], [0, 0], [[.data 4], [], []]⟩ (.data 7) 3 false =
    (⟨[⟨1, 0, 0⟩, ⟨2, 0, 0⟩], [0, 3], [[.data 4], [.data 71, .data 71], []]⟩, .error .pipelineError) := by decide

/-- **C44**: an element that gives up on a datum without saving it, with any other limit than one attempt and nothing else in front of it: the call raises
IndexError instead of PipelineError, and the datum is lost whatever `removefailed` says. -/
theorem processSingle_gives_up_lost (B : Beh S D M) (e : Elem S) (c0 : Nat) (q1 : List (Item D M)) (x : D) (limit : Nat)
    (hacc : B.accepts e x = true) (hfail : ∃ s, attempt B e x = (s, [], .none)) (hlim : limit = 0 ∨ c0 + 1 < limit) (rf : Bool) (fuel : Nat) :
    ∃ p', processSingle B (fuel + 1) ⟨[e], [c0], [[], q1]⟩ (.data x) limit rf = (p', .error .indexError) ∧ p'.queues = [[], q1] := by
  obtain ⟨s, hat⟩ := hfail
  have hps := processStage_data B ⟨[e], [c0], [[.data x], q1]⟩ 0 e x [] rfl rfl hacc
  rw [hat] at hps
  simp only [List.map_nil, List.append_nil] at hps
  unfold processSingle
  simp only [Py.update_zero, List.modify_zero_cons, Py.append, List.length_singleton]
  rw [show List.range 1 = [0] from rfl]
  have hps' : processStage B ⟨[e], [c0], [[.data x], q1]⟩ ((0 : Nat) : Int) = _ := hps
  simp only [singleLoop, List.nil_append, hps']
  have hl : ¬ (limit ≠ 0 ∧ limit ≤ c0 + 1) := by omega
  have h2 : processStage B ⟨[{ e with st := s }], [c0 + 1], [[], q1]⟩ 0 = (⟨[{ e with st := s }], [c0 + 1], [[], q1]⟩, .error .indexError) := by
    simp [processStage, Py.get?, Py.idx, Py.popright]
  have hl' : ∀ h : ¬ limit = 0, ¬ limit ≤ c0 + 1 := fun h h' => hl ⟨h, h'⟩
  simp [singleRetry, cyc, h2]
  by_cases h0 : limit = 0
  · simp [h0]
  · simp [h0, hl' h0]

example : ∃ s, attempt (⟨fun _ _ => true, fun e _ => (e.st + 1, [], .none), fun e _ => (e.st, [], .none),
    fun _ e => (e.st, true)⟩ : Beh Nat Nat Unit) ⟨1, 0, 0⟩ 7 = (s, [], .none) := ⟨1, rfl⟩

end Verif.Pipeline
